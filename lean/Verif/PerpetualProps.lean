import Verif.EnergyLineProps
import Verif.EnergyProps

/-!
# C179: nothing flows for ever by itself
-/

namespace Pipedream.Step

open Pipedream.Sweep Pipedream.Link Pipedream.Superlink Pipedream.Control Pipedream.Network

variable {m : Model} {geo : Geo} {inp : Inputs} {wk : Work} {prev s : Hyd} {co : Coef ℝ} {x zI : ℕ → ℝ}

noncomputable section

/-! ### Specification -/

/-- The network is left to itself: nothing is supplied, no pump works, and all fixed heads stand at the same level `T`. -/
structure LeftAlone (m : Model) (inp : Inputs) (s : Hyd) (T : ℝ) : Prop where
  inflow : ∀ i, i < m.M → m.bc i = false → inp.Q_in i = 0
  lateral : ∀ k, k < m.ix.NK → ∀ j, j ≤ m.ix.nk k → inp.Q_0Ik (m.ix.I_1k k + j) = 0
  pumps : ∀ p, p < m.n_p → s.Qp p = 0
  fixed : ∀ i, i < m.M → m.bc i = true → s.H i = T

/-- Links resist by Manning's or Hazen–Williams' formula, and losses at structures are losses. -/
structure Resisting (m : Model) : Prop where
  method : ∀ i, i < m.N → m.method i = 0 ∨ m.method i = 1
  structures : ∀ i, i < m.N → m.ctrl i = true → 0 ≤ m.C i

/-! ### Lemmas -/

/-- What elements deliver, weighted by `f`. -/
theorem sum_netInto {n M : ℕ} {Ju Jd : ℕ → ℕ} (hu : ∀ k, k < n → Ju k < M) (hd : ∀ k, k < n → Jd k < M) (Qu Qd f : ℕ → ℝ) :
    ∑ i ∈ Finset.range M, f i * netInto n Ju Jd Qu Qd i
      = ∑ k ∈ Finset.range n, (f (Jd k) * Qd k - f (Ju k) * Qu k) := by
  simp only [netInto, Finset.mul_sum]
  rw [Finset.sum_comm]
  refine Finset.sum_congr rfl fun k hk => ?_
  have hk := Finset.mem_range.mp hk
  simp only [mul_sub, mul_ite, mul_zero, Finset.sum_sub_distrib, Finset.sum_ite_eq, Finset.mem_range, hu k hk, hd k hk, if_true]

theorem friction_pos {g Q dx A R n : ℝ} {method : ℤ} (hm : method = 0 ∨ method = 1) (hg : 0 < g) (hd : 0 < dx) (hA : 0 < A)
    (hR : 0 < R) (hn : 0 < n) (hQ : Q ≠ 0) : 0 < frictionLaw g method Q dx A R n := by
  have q := abs_pos.mpr hQ
  unfold frictionLaw
  rcases hm with rfl | rfl
  · simp only [if_true]; positivity
  · norm_num; positivity

/-- Water that flows loses head. -/
theorem loss_power (ps : PhysicalStep m geo inp) (rs : Resisting m) {k j : ℕ} (hl : m.ix.i_1k k + j < m.N) :
    0 ≤ s.Q (m.ix.i_1k k + j) * headLoss m geo s k j ∧
    (s.Q (m.ix.i_1k k + j) ≠ 0 → 0 < s.Q (m.ix.i_1k k + j) * headLoss m geo s k j) := by
  have hg := ps.g_pos
  have hA := ps.A_pos _ hl
  have l0 : 0 ≤ (if m.ctrl (m.ix.i_1k k + j) then m.C (m.ix.i_1k k + j) * geo.A (m.ix.i_1k k + j)
      * |s.Q (m.ix.i_1k k + j)| / m.A_c (m.ix.i_1k k + j) ^ 2 else 0) := by
    split_ifs with h
    · have := rs.structures _ hl h
      positivity
    · exact le_rfl
  have f0 := frictionLaw_nonneg (Q := s.Q (m.ix.i_1k k + j)) (method := m.method (m.ix.i_1k k + j)) hg (ps.dx_pos _ hl) hA
    (ps.R_pos _ hl) (ps.n_pos _ hl)
  have f1 := fun h => friction_pos (Q := s.Q (m.ix.i_1k k + j)) (rs.method _ hl) hg (ps.dx_pos _ hl) hA (ps.R_pos _ hl)
    (ps.n_pos _ hl) h
  simp only [headLoss]
  generalize frictionLaw m.g _ _ _ _ _ _ = f at f0 f1 ⊢
  generalize (if m.ctrl (m.ix.i_1k k + j) then m.C (m.ix.i_1k k + j) * geo.A (m.ix.i_1k k + j)
      * |s.Q (m.ix.i_1k k + j)| / m.A_c (m.ix.i_1k k + j) ^ 2 else 0) = l at l0 ⊢
  generalize s.Q (m.ix.i_1k k + j) = q at f1 ⊢
  have e : q * ((f + l) * q / (m.g * geo.A (m.ix.i_1k k + j))) = (f + l) * q ^ 2 / (m.g * geo.A (m.ix.i_1k k + j)) := by ring
  simp only [e]
  refine ⟨by positivity, fun h => ?_⟩
  have := f1 h
  positivity

/-- Fall of the surface along a whole superlink. -/
theorem fall_sum (bed : Bed m zI) {k : ℕ} (hk : k < m.ix.NK) : ∀ n, n ≤ m.ix.nk k →
    ∑ j ∈ Finset.range n, surfaceFall m s k j
      = zI (m.ix.I_1k k) + s.h (m.ix.I_1k k) - (zI (m.ix.I_1k k + n) + s.h (m.ix.I_1k k + n)) := by
  intro n
  induction n with
  | zero => intro _; simp
  | succ n ih =>
    intro hn
    rw [Finset.sum_range_succ, ih (by omega), surfaceFall, bed.slope k hk n (by omega)]
    simp only [← add_assoc]
    ring

/-- **C179 (one superlink).** A steady superlink without lateral inflow carries the same flow throughout, and takes at least as
much power from the heads at its ends as its links lose, which is positive if it carries water. -/
theorem C179_superlink (c : m.Consistent) (ps : PhysicalStep m geo inp) (rs : Resisting m) (mn : 0 ≤ m.min_depth)
    (bed : Bed m zI) (ins : Inside m s) (sd : Steady m geo inp s) {k : ℕ} (hk : k < m.ix.NK)
    (h0 : ∀ j, j ≤ m.ix.nk k → inp.Q_0Ik (m.ix.I_1k k + j) = 0) :
    s.Qd k = s.Qu k ∧ (∀ j, j < m.ix.nk k → s.Q (m.ix.i_1k k + j) = s.Qu k) ∧
    0 ≤ s.Qu k * (s.H (m.Ju k) - s.H (m.Jd k)) ∧
    (s.Qu k ≠ 0 → 0 < s.Qu k * (s.H (m.Ju k) - s.H (m.Jd k))) := by
  obtain ⟨a, l⟩ := steady_through sd hk h0
  have n1 := c.layout.pos k hk
  have lt := c.inN k hk
  have hQ : ∀ j, j < m.ix.nk k → s.Q (m.ix.i_1k k + j) = s.Qu k := by
    intro j hj
    have := l j hj.le
    unfold leaving at this
    rwa [if_neg (by omega)] at this
  have hd : s.Qd k = s.Qu k := by
    have := l (m.ix.nk k) le_rfl
    unfold leaving at this
    rwa [if_pos rfl] at this
  -- power lost in the links
  have lp : ∀ j, j < m.ix.nk k → 0 ≤ s.Qu k * surfaceFall m s k j ∧ (s.Qu k ≠ 0 → 0 < s.Qu k * surfaceFall m s k j) := by
    intro j hj
    have := loss_power (s := s) ps rs (k := k) (j := j) (by omega)
    rw [← C172_surface ps c sd hk h0 hj, hQ j hj] at this
    exact this
  have sum0 : 0 ≤ s.Qu k * ∑ j ∈ Finset.range (m.ix.nk k), surfaceFall m s k j := by
    rw [Finset.mul_sum]
    exact Finset.sum_nonneg fun j hj => (lp j (Finset.mem_range.mp hj)).1
  have sum1 : s.Qu k ≠ 0 → 0 < s.Qu k * ∑ j ∈ Finset.range (m.ix.nk k), surfaceFall m s k j := by
    intro h
    rw [Finset.mul_sum]
    exact Finset.sum_pos (fun j hj => (lp j (Finset.mem_range.mp hj)).2 h) ⟨0, Finset.mem_range.mpr n1⟩
  rw [fall_sum bed hk _ le_rfl, bed.up k hk, bed.down k hk] at sum0 sum1
  -- the ends
  have d0 := ins.depths k hk 0 (by omega)
  have dn := ins.depths k hk (m.ix.nk k) le_rfl
  have hu := sd.up k hk
  have hdn := sd.down k hk
  rw [add_zero] at d0
  rw [hd] at hdn
  have Cu := ps.Cu k hk
  have Cd := ps.Cd k hk
  have hg := ps.g_pos
  have eu : 0 ≤ |s.Qu k| * m.C_uk k / (2 * m.g * geo.A_u k ^ 2) := by positivity
  have ed : 0 ≤ |s.Qu k| * m.C_dk k / (2 * m.g * geo.A_d k ^ 2) := by positivity
  have q2 := sq_nonneg (s.Qu k)
  -- at each end the head does not exceed the drop
  have Lu : s.Qu k * (m.z_uk k + s.h (m.ix.I_1k k)) ≤ s.Qu k * s.H (m.Ju k) := by
    generalize |s.Qu k| * m.C_uk k / (2 * m.g * geo.A_u k ^ 2) = e at hu eu
    split_ifs at hu with h
    · rw [hu]; nlinarith
    · have : s.Qu k ≤ 0 := by
        by_contra hq
        have := mul_nonneg eu (not_le.mp hq).le
        linarith
      push Not at h
      have : 0 ≤ -s.Qu k * (m.z_uk k + s.h (m.ix.I_1k k) - s.H (m.Ju k)) := mul_nonneg (by linarith) (by linarith)
      linarith
  have Ld : s.Qu k * s.H (m.Jd k) ≤ s.Qu k * (m.z_dk k + s.h (m.ix.I_1k k + m.ix.nk k)) := by
    generalize |s.Qu k| * m.C_dk k / (2 * m.g * geo.A_d k ^ 2) = e at hdn ed
    split_ifs at hdn with h
    · rw [hdn]; nlinarith
    · have : 0 ≤ s.Qu k := by
        by_contra hq
        have := mul_nonneg ed (neg_nonneg.mpr (not_le.mp hq).le)
        linarith
      push Not at h
      have : 0 ≤ s.Qu k * (m.z_dk k + s.h (m.ix.I_1k k + m.ix.nk k) - s.H (m.Jd k)) := mul_nonneg this (by linarith)
      linarith
  exact ⟨hd, hQ, by linarith, fun h => by have := sum1 h; linarith⟩

/-- Orifices and weirs take power from the heads. -/
theorem ctrl_power (ps : PhysicalStep m geo inp) (V0 : ∀ i, i < m.M → 0 ≤ geo.V i) (c : m.Consistent) (sd : Steady m geo inp s) :
    (∀ o, o < m.n_o → 0 ≤ s.Qo o * (s.H (m.Juo o) - s.H (m.Jdo o))) ∧
    (∀ w, w < m.n_w → 0 ≤ s.Qw w * (s.H (m.Juw w) - s.H (m.Jdw w))) := by
  constructor
  · intro o ho
    have h := C20_direction m.g (geo.Ao o) (m.Co o) (s.H (m.Juo o)) (s.H (m.Jdo o)) (inp.u_o o) (geo.V (m.Juo o))
      (geo.V (m.Jdo o)) inp.dt (m.orifice o) (V0 _ (c.Juo o ho)) (V0 _ (c.Jdo o ho)) ps.dt_pos
    rw [← sd.orifices o ho] at h
    rcases le_or_gt (s.H (m.Jdo o)) (s.H (m.Juo o)) with g | g
    · exact mul_nonneg (h.1 g) (by linarith)
    · exact mul_nonneg_of_nonpos_of_nonpos (h.2 g) (by linarith)
  · intro w hw
    have h := C25_direction (s.H (m.Juw w)) (s.H (m.Jdw w)) (inp.u_w w) (m.weir w)
    rw [← sd.weirs w hw] at h
    rcases le_or_gt (s.H (m.Jdw w)) (s.H (m.Juw w)) with g | g
    · exact mul_nonneg (h.1 g) (by linarith)
    · exact mul_nonneg_of_nonpos_of_nonpos (h.2.1 g) (by linarith)

/-! ### C179 -/

/-- **C179 (power account).** In steady flow the power that superlinks, orifices and weirs take from the heads is the power
(heads above `T` times discharge) of the external inflows at free superjunctions and of the pumps, if the fixed heads
stand at `T`. -/
theorem C179_power (c : m.Consistent) (sd : Steady m geo inp s) {T : ℝ} (fixed : ∀ i, i < m.M → m.bc i = true → s.H i = T) :
    ∑ k ∈ Finset.range m.ix.NK, ((s.H (m.Ju k) - T) * s.Qu k - (s.H (m.Jd k) - T) * s.Qd k)
      + ∑ o ∈ Finset.range m.n_o, s.Qo o * (s.H (m.Juo o) - s.H (m.Jdo o))
      + ∑ w ∈ Finset.range m.n_w, s.Qw w * (s.H (m.Juw w) - s.H (m.Jdw w))
    = ∑ i ∈ Finset.range m.M, (s.H i - T) * inp.Q_in i
      + ∑ p ∈ Finset.range m.n_p, s.Qp p * (s.H (m.Jdp p) - s.H (m.Jup p)) := by
  have z : ∑ i ∈ Finset.range m.M, (s.H i - T) * (inp.Q_in i + netInto m.ix.NK m.Ju m.Jd s.Qu s.Qd i
      + netInto m.n_o m.Juo m.Jdo s.Qo s.Qo i + netInto m.n_w m.Juw m.Jdw s.Qw s.Qw i
      + netInto m.n_p m.Jup m.Jdp s.Qp s.Qp i) = 0 := by
    refine Finset.sum_eq_zero fun i hi => ?_
    have hi := Finset.mem_range.mp hi
    rcases hb : m.bc i with _ | _
    · rw [sd.balance i hi hb, mul_zero]
    · rw [fixed i hi hb, sub_self, zero_mul]
  simp only [mul_add, Finset.sum_add_distrib] at z
  rw [sum_netInto c.Ju c.Jd, sum_netInto c.Juo c.Jdo, sum_netInto c.Juw c.Jdw, sum_netInto c.Jup c.Jdp] at z
  have e : ∀ (n : ℕ) (Q : ℕ → ℝ) (U D : ℕ → ℕ), ∑ k ∈ Finset.range n, Q k * (s.H (U k) - s.H (D k))
      = -∑ k ∈ Finset.range n, ((s.H (D k) - T) * Q k - (s.H (U k) - T) * Q k) := by
    intro n Q U D
    rw [← Finset.sum_neg_distrib]
    exact Finset.sum_congr rfl fun k _ => by ring
  have e' : ∑ k ∈ Finset.range m.ix.NK, ((s.H (m.Ju k) - T) * s.Qu k - (s.H (m.Jd k) - T) * s.Qd k)
      = -∑ k ∈ Finset.range m.ix.NK, ((s.H (m.Jd k) - T) * s.Qd k - (s.H (m.Ju k) - T) * s.Qu k) := by
    rw [← Finset.sum_neg_distrib]
    exact Finset.sum_congr rfl fun k _ => by ring
  have e2 : ∑ k ∈ Finset.range m.n_p, s.Qp k * (s.H (m.Jdp k) - s.H (m.Jup k))
      = ∑ k ∈ Finset.range m.n_p, ((s.H (m.Jdp k) - T) * s.Qp k - (s.H (m.Jup k) - T) * s.Qp k) :=
    Finset.sum_congr rfl fun k _ => by ring
  rw [e', e, e, e2]
  linarith

/-- **C179 (pipes and weirs).** In a steady state of a network left to itself no superlink and no weir carries water, the
surface in every superlink is level with the heads at both its ends, and no orifice carries water between different heads. -/
theorem C179_rest (c : m.Consistent) (ps : PhysicalStep m geo inp) (rs : Resisting m) (mn : 0 ≤ m.min_depth)
    (V0 : ∀ i, i < m.M → 0 ≤ geo.V i) (bed : Bed m zI) (ins : Inside m s) (sd : Steady m geo inp s) {T : ℝ}
    (la : LeftAlone m inp s T) :
    (∀ k, k < m.ix.NK → s.Qu k = 0 ∧ s.Qd k = 0 ∧ (∀ j, j < m.ix.nk k → s.Q (m.ix.i_1k k + j) = 0) ∧
      s.H (m.Ju k) = s.H (m.Jd k) ∧ ∀ j, j ≤ m.ix.nk k → zI (m.ix.I_1k k + j) + s.h (m.ix.I_1k k + j) = s.H (m.Ju k)) ∧
    (∀ w, w < m.n_w → s.Qw w = 0) ∧
    (∀ o, o < m.n_o → s.H (m.Juo o) ≠ s.H (m.Jdo o) → s.Qo o = 0) := by
  have sl := fun k hk => C179_superlink c ps rs mn bed ins sd hk (la.lateral k hk)
  have cp := ctrl_power ps V0 c sd
  have pw := C179_power c sd la.fixed
  have r0 : ∑ i ∈ Finset.range m.M, (s.H i - T) * inp.Q_in i
      + ∑ p ∈ Finset.range m.n_p, s.Qp p * (s.H (m.Jdp p) - s.H (m.Jup p)) = 0 := by
    rw [Finset.sum_eq_zero, Finset.sum_eq_zero, add_zero]
    · intro p hp
      rw [la.pumps p (Finset.mem_range.mp hp), zero_mul]
    · intro i hi
      have hi := Finset.mem_range.mp hi
      rcases hb : m.bc i with _ | _
      · rw [la.inflow i hi hb, mul_zero]
      · rw [la.fixed i hi hb, sub_self, zero_mul]
  have ek : ∀ k ∈ Finset.range m.ix.NK, (s.H (m.Ju k) - T) * s.Qu k - (s.H (m.Jd k) - T) * s.Qd k
      = s.Qu k * (s.H (m.Ju k) - s.H (m.Jd k)) := by
    intro k hk
    rw [(sl k (Finset.mem_range.mp hk)).1]; ring
  rw [r0, Finset.sum_congr rfl ek] at pw
  have n1 := Finset.sum_nonneg fun k (hk : k ∈ Finset.range m.ix.NK) => (sl k (Finset.mem_range.mp hk)).2.2.1
  have n2 := Finset.sum_nonneg fun o (ho : o ∈ Finset.range m.n_o) => cp.1 o (Finset.mem_range.mp ho)
  have n3 := Finset.sum_nonneg fun w (hw : w ∈ Finset.range m.n_w) => cp.2 w (Finset.mem_range.mp hw)
  have z1 := (Finset.sum_eq_zero_iff_of_nonneg fun k hk => (sl k (Finset.mem_range.mp hk)).2.2.1).mp
    (by linarith : ∑ k ∈ Finset.range m.ix.NK, s.Qu k * (s.H (m.Ju k) - s.H (m.Jd k)) = 0)
  have z2 := (Finset.sum_eq_zero_iff_of_nonneg fun o ho => cp.1 o (Finset.mem_range.mp ho)).mp
    (by linarith : ∑ o ∈ Finset.range m.n_o, s.Qo o * (s.H (m.Juo o) - s.H (m.Jdo o)) = 0)
  have z3 := (Finset.sum_eq_zero_iff_of_nonneg fun w hw => cp.2 w (Finset.mem_range.mp hw)).mp
    (by linarith : ∑ w ∈ Finset.range m.n_w, s.Qw w * (s.H (m.Juw w) - s.H (m.Jdw w)) = 0)
  refine ⟨fun k hk => ?_, fun w hw => ?_, fun o ho ne => ?_⟩
  · have h := sl k hk
    have q0 : s.Qu k = 0 := by
      by_contra hq
      exact (h.2.2.2 hq).ne' (z1 k (Finset.mem_range.mpr hk))
    have hQ : ∀ j, j < m.ix.nk k → s.Q (m.ix.i_1k k + j) = 0 := fun j hj => (h.2.1 j hj).trans q0
    -- the ends are under water
    have d0 := ins.depths k hk 0 (by omega)
    have dn := ins.depths k hk (m.ix.nk k) le_rfl
    have hu := sd.up k hk
    have hdn := sd.down k hk
    rw [q0, mul_zero, sub_zero] at hu
    rw [h.1, q0, mul_zero, add_zero] at hdn
    rw [add_zero] at d0
    have bu : m.z_uk k ≤ s.H (m.Ju k) := by
      by_contra hz
      rw [if_neg hz] at hu
      linarith
    have bd : m.z_dk k ≤ s.H (m.Jd k) := by
      by_contra hz
      rw [if_neg hz] at hdn
      linarith
    rw [if_pos bu] at hu
    rw [if_pos bd] at hdn
    have fall : ∀ j, j < m.ix.nk k → surfaceFall m s k j = 0 := by
      intro j hj
      rw [C172_surface ps c sd hk (la.lateral k hk) hj, headLoss, hQ j hj, mul_zero, zero_div]
    have lev : ∀ j, j ≤ m.ix.nk k → zI (m.ix.I_1k k + j) + s.h (m.ix.I_1k k + j) = s.H (m.Ju k) := by
      intro j hj
      have e := fall_sum (s := s) bed hk j hj
      rw [Finset.sum_eq_zero fun i hi => fall i (by have := Finset.mem_range.mp hi; omega), bed.up k hk] at e
      linarith
    refine ⟨q0, h.1.trans q0, hQ, ?_, lev⟩
    have := lev _ le_rfl
    rw [bed.down k hk] at this
    linarith
  · rcases mul_eq_zero.mp (z3 w (Finset.mem_range.mpr hw)) with h | h
    · exact h
    · rw [sd.weirs w hw]
      exact (C25_direction _ _ _ _).2.2 (sub_eq_zero.mp h)
  · exact (mul_eq_zero.mp (z2 o (Finset.mem_range.mpr ho))).resolve_right (sub_ne_zero.mpr ne)

/-- **C179 (with orifices, partial).** If moreover no orifice with equal heads on both sides is partly filled, nothing flows at
all. Missing: partly filled orifices between equal heads, which the code lets flow (`C179_perpetual`). -/
theorem C179_rest_partial (c : m.Consistent) (ps : PhysicalStep m geo inp) (rs : Resisting m) (mn : 0 ≤ m.min_depth)
    (V0 : ∀ i, i < m.M → 0 ≤ geo.V i) (bed : Bed m zI) (ins : Inside m s) (sd : Steady m geo inp s) {T : ℝ}
    (la : LeftAlone m inp s T) (op : ∀ o, o < m.n_o → 0 ≤ (m.orifice o).opening (inp.u_o o))
    (full : ∀ o, o < m.n_o → s.H (m.Juo o) = s.H (m.Jdo o) →
      (m.orifice o).bottom + (m.orifice o).opening (inp.u_o o) < s.H (m.Juo o) ∨ s.H (m.Juo o) ≤ (m.orifice o).bottom) :
    ∀ o, o < m.n_o → s.Qo o = 0 := by
  intro o ho
  by_cases e : s.H (m.Juo o) = s.H (m.Jdo o)
  · rw [sd.orifices o ho, ← e]
    exact C20_equal_heads_partial _ _ _ _ _ _ _ _ _ (op o ho) (full o ho e)
  · exact (C179_rest c ps rs mn V0 bed ins sd la).2.2 o ho e

/-- **C179 (steps).** A network left to itself which a step leaves as it was is at rest. -/
theorem C179_step (c : m.Consistent) (st : StartTables m) (ps : PhysicalStep m geo inp) (cw : CleanWork m wk.mats)
    (he : m.end_method = .b) (pc : ProperControls m geo inp s) (rs : Resisting m) (mn : 0 ≤ m.min_depth)
    (V0 : ∀ i, i < m.M → 0 ≤ geo.V i) (bed : Bed m zI) (ins : Inside m s) {T : ℝ} (la : LeftAlone m inp s T)
    (p : Pass m geo inp wk s s co x) (rep : SameState m s (m.advance geo inp wk s co x)) {k : ℕ} (hk : k < m.ix.NK) :
    s.Qu k = 0 ∧ s.Qd k = 0 ∧ ∀ j, j < m.ix.nk k → s.Q (m.ix.i_1k k + j) = 0 := by
  have sd := C100_reproduced_steady c st ps cw he pc ins (SameState.refl m s) p rep
  have h := (C179_rest c ps rs mn V0 bed ins sd la).1 k hk
  exact ⟨h.1, h.2.1, h.2.2.1⟩

/-! ### Two orifices that drive water round in a circle -/

/-- The pond with two orifices of height 1 at level 4.5, one leading from the first superjunction to the second, the other
back. -/
def roundModel : Model :=
  { exModel false with
    n_o := 2, Juo := fun o => o, Jdo := fun o => 1 - o, orifice := fun _ => ⟨4.5, 0, 1, 1, false⟩, Co := fun _ => 1
    n_w := 0, n_p := 0 }

/-- Openings of area 1. -/
def roundGeo : Geo := exGeo

/-- Steps of one second. -/
def roundInp : Inputs := { exInp with dt := 1 }

/-- What an orifice filled to a half passes. -/
def roundFlow : ℝ := Real.sqrt (2 * 9.81 * 0.5)

/-- The pond is level and water goes round. -/
def roundState : Hyd := { exStill with Qo := fun _ => roundFlow }

theorem roundFlow_pos : 0 < roundFlow := Real.sqrt_pos.mpr (by norm_num)

theorem roundFlow_le : roundFlow ≤ 15 := by
  unfold roundFlow
  rw [Real.sqrt_le_left (by norm_num)]
  norm_num

theorem roundRaw : orificeRaw 9.81 1 1 5 5 1 ⟨4.5, 0, 1, 1, false⟩ = roundFlow := by
  have h : orificeCoef ⟨0, 0, 0⟩ (2 * 9.81 * 1 ^ 2 * 1 ^ 2) 5 5 1 ⟨4.5, 0, 1, 1, false⟩
      = ⟨2 * 9.81, 0, -(2 * 9.81 * 4.5)⟩ := by
    simp only [orificeCoef, omega, sgn]
    norm_num
  simp only [orificeRaw, h, sgn, roundFlow]
  norm_num

theorem roundLaw : orificeFlow 9.81 1 1 5 5 1 15 15 1 ⟨4.5, 0, 1, 1, false⟩ = roundFlow := by
  have h0 := roundFlow_pos
  rw [orificeFlow, roundRaw]
  simp only [orificeLimit, npSign]
  rw [if_pos h0, abs_of_pos h0]
  norm_num [roundFlow_le]

theorem roundConsistent : roundModel.Consistent := by
  have h := exConsistent false
  refine ⟨h.layout, h.inN, h.nodes, h.Ju, h.Jd, ?_, ?_, by simp [roundModel], by simp [roundModel], by simp [roundModel],
    by simp [roundModel]⟩
  · intro o ho; exact ho
  · intro o ho; simp [roundModel, exModel] at ho ⊢

theorem roundPhysical : PhysicalStep roundModel roundGeo roundInp := by
  constructor <;> intros <;> norm_num [roundModel, roundGeo, roundInp, exModel, exGeo, exInp]

theorem roundInside : Inside roundModel roundState := by
  refine ⟨fun i hi => ?_, fun k hk j hj => ?_, fun k hk j h1 h2 => ?_, fun k hk => ?_⟩
  · norm_num [roundModel, roundState, exModel, exStill]
  · have : (0 : ℝ) ≤ j := Nat.cast_nonneg j
    simp only [roundModel, roundState, exModel, exStill, exBed]
    push_cast
    norm_num; linarith
  · have : j = 1 := by simp [roundModel, exModel] at h2; omega
    subst this
    norm_num [roundModel, roundState, exModel, exStill, exBed]
  · norm_num [roundModel, exModel]

theorem roundLeft : LeftAlone roundModel roundInp roundState 5 :=
  ⟨fun _ _ _ => rfl, fun _ _ _ _ => rfl, fun p hp => by simp [roundModel] at hp, fun _ _ _ => rfl⟩

theorem roundSteady : Steady roundModel roundGeo roundInp roundState := by
  have ar : ∀ k j, arriving roundModel roundState k j = 0 := by
    intro k j; unfold arriving; split_ifs <;> rfl
  have le : ∀ k j, leaving roundModel roundState k j = 0 := by
    intro k j; unfold leaving; split_ifs <;> rfl
  refine ⟨fun i _ _ f hf => ?_, fun i hi _ => ?_, fun k hk j hj => ?_, fun k hk j hj => ?_, fun k hk => ?_,
    fun k hk => ?_, fun o ho => ?_, ?_, ?_⟩
  · simp [roundInp, exInp] at hf
  · obtain rfl | rfl : i = 0 ∨ i = 1 := by simp [roundModel, exModel] at hi; omega
    · norm_num [netInto, roundModel, exModel, roundState, exStill, roundInp, exInp, Finset.sum_range_succ]
    · norm_num [netInto, roundModel, exModel, roundState, exStill, roundInp, exInp, Finset.sum_range_succ]
  · rw [ar, le]
    simp only [roundState, exStill, roundModel, exModel, exBed, roundGeo, exGeo]
    push_cast
    norm_num
    ring
  · rw [ar, le]; simp [roundInp, exInp]
  · norm_num [roundModel, exModel, roundState, exStill, exBed]
  · norm_num [roundModel, exModel, roundState, exStill, exBed]
  · exact roundLaw.symm
  · intro o ho; simp [roundModel] at ho
  · intro o ho; simp [roundModel] at ho

theorem roundProper : ProperControls roundModel roundGeo roundInp roundState := by
  refine ⟨fun k hk => ?_, fun k hk => ?_, fun o ho => ?_, fun o ho => ?_, fun p hp => ?_⟩
  · norm_num [roundGeo, exGeo]
  · norm_num [roundGeo, exGeo]
  · norm_num [roundModel, Orifice.opening, roundInp, exInp]
  · show |orificeRaw 9.81 1 1 5 5 1 ⟨4.5, 0, 1, 1, false⟩| ≤ (if (5 : ℝ) > 5 then 15 else 15) / 1
    rw [roundRaw, abs_of_pos roundFlow_pos]
    norm_num [roundFlow_le]
  · simp [roundModel] at hp

/-- **C179, violated.** Two orifices filled to a half join two superjunctions of the same level in opposite directions.
Nothing is supplied, no pump works and no head is fixed, yet both carry the same water, and every step leaves the state as
it was. -/
theorem C179_perpetual : roundModel.Consistent ∧ PhysicalStep roundModel roundGeo roundInp ∧ Inside roundModel roundState ∧
    LeftAlone roundModel roundInp roundState 5 ∧
    (∃ co x, Pass roundModel roundGeo roundInp exWork roundState roundState co x) ∧
    (∀ co x, Pass roundModel roundGeo roundInp exWork roundState roundState co x →
      SameState roundModel roundState (roundModel.advance roundGeo roundInp exWork roundState co x)) ∧
    ∀ o, 3 < roundState.Qo o := by
  have cw : CleanWork roundModel exWork.mats :=
    ⟨⟨fun _ _ _ _ => rfl⟩, ⟨fun _ _ _ _ => rfl, fun _ _ => rfl⟩, ⟨fun _ _ _ _ => rfl, fun _ _ => rfl⟩,
      ⟨fun _ _ _ _ => rfl, fun _ _ => rfl⟩⟩
  have st := exStartTables false
  refine ⟨roundConsistent, roundPhysical, roundInside, roundLeft,
    C06_step_exists roundConsistent roundPhysical cw (fun _ _ => Or.inl rfl), fun co x p => ?_, fun o => ?_⟩
  · exact C100_steady_reproduced roundConsistent ⟨st.first, st.last⟩ roundPhysical cw rfl roundProper roundInside
      (SameState.refl _ _) roundSteady p
  · show (3 : ℝ) < Real.sqrt (2 * 9.81 * 0.5)
    rw [Real.lt_sqrt (by norm_num)]
    norm_num

/-- The circling pond meets the hypotheses of `C179_rest`: its pipe is at rest. -/
example : ∀ k, k < roundModel.ix.NK → roundState.Qu k = 0 := fun k hk =>
  ((C179_rest (zI := exBed) roundConsistent roundPhysical
    ⟨fun _ _ => Or.inl rfl, fun _ _ h => by simp [roundModel, exModel] at h⟩ (by norm_num [roundModel, exModel])
    (fun _ _ => by norm_num [roundGeo, exGeo])
    ⟨(exBedOk false).slope, (exBedOk false).up, (exBedOk false).down⟩ roundInside roundSteady roundLeft).1 k hk).1

end

end Pipedream.Step
