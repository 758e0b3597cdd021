import Verif.SteadyMonotoneProps
import Verif.ControlOrderLemmas

/-!
# C186: steady levels in networks with weirs, orifices and pumps
-/

namespace Pipedream.Step

open Pipedream.Sweep Pipedream.Link Pipedream.Superlink Pipedream.Control Pipedream.Network

variable {m : Model} {geo : Geo} {inp inp' : Inputs} {s s' : Hyd} {zI : ℕ → ℝ}

noncomputable section

/-! ### Specification -/

/-- What two states of a network with controls have in common: the same settings, no lateral inflow, pipe ends under water,
no orifice throttled by the volume of water or with its source on another side of the crown; both steady. -/
structure Alike (m : Model) (geo : Geo) (inp inp' : Inputs) (s s' : Hyd) (zI : ℕ → ℝ) : Prop where
  consistent : m.Consistent
  physical : PhysicalStep m geo inp
  physical' : PhysicalStep m geo inp'
  resisting : Resisting m
  bed : Bed m zI
  lat : ∀ k, k < m.ix.NK → ∀ j, j ≤ m.ix.nk k → inp.Q_0Ik (m.ix.I_1k k + j) = 0
  lat' : ∀ k, k < m.ix.NK → ∀ j, j ≤ m.ix.nk k → inp'.Q_0Ik (m.ix.I_1k k + j) = 0
  under : Submerged m s
  under' : Submerged m s'
  u_o : ∀ o, o < m.n_o → inp'.u_o o = inp.u_o o
  u_w : ∀ w, w < m.n_w → inp'.u_w w = inp.u_w w
  u_p : ∀ p, p < m.n_p → inp'.u_p p = inp.u_p p
  weirs : ∀ w, w < m.n_w → 0 ≤ (m.weir w).Cwr * (m.weir w).L ∧ 0 ≤ (m.weir w).Cwt * (m.weir w).s
  proper : ProperControls m geo inp s
  proper' : ProperControls m geo inp' s'
  side : ∀ o, o < m.n_o →
    ((m.orifice o).bottom + (m.orifice o).opening (inp.u_o o) < max (s.H (m.Juo o)) (s.H (m.Jdo o)) ↔
      (m.orifice o).bottom + (m.orifice o).opening (inp.u_o o) < max (s'.H (m.Juo o)) (s'.H (m.Jdo o)))
  steady : Steady m geo inp s
  steady' : Steady m geo inp' s'

/-- Water can be followed from superjunction `b` to `a`: through a superlink, or through a weir or orifice carrying water that
way, or through a pump running that way at a lift between its limits. -/
def RunsTo (m : Model) (s : Hyd) (b a : ℕ) : Prop :=
  Joins m b a ∨
  (∃ w, w < m.n_w ∧ ((m.Juw w = b ∧ m.Jdw w = a ∧ 0 < s.Qw w) ∨ (m.Juw w = a ∧ m.Jdw w = b ∧ s.Qw w < 0))) ∨
  (∃ o, o < m.n_o ∧ ((m.Juo o = b ∧ m.Jdo o = a ∧ 0 < s.Qo o) ∨ (m.Juo o = a ∧ m.Jdo o = b ∧ s.Qo o < 0))) ∨
  ∃ p, p < m.n_p ∧ m.Jup p = b ∧ m.Jdp p = a ∧ 0 < s.Qp p ∧
    (m.pump p).dHmin ≤ s.H a - s.H b ∧ s.H a - s.H b < (m.pump p).dHmax

/-! ### Lemmas -/

theorem Alike.symm (h : Alike m geo inp inp' s s' zI) : Alike m geo inp' inp s' s zI where
  consistent := h.consistent
  physical := h.physical'
  physical' := h.physical
  resisting := h.resisting
  bed := h.bed
  lat := h.lat'
  lat' := h.lat
  under := h.under'
  under' := h.under
  u_o o ho := (h.u_o o ho).symm
  u_w w hw := (h.u_w w hw).symm
  u_p p hp := (h.u_p p hp).symm
  weirs := h.weirs
  proper := h.proper'
  proper' := h.proper
  side o ho := by rw [h.u_o o ho]; exact (h.side o ho).symm
  steady := h.steady'
  steady' := h.steady

theorem Alike.orifice (h : Alike m geo inp inp' s s' zI) {o : ℕ} (ho : o < m.n_o) :
    s.Qo o = orificeRaw m.g (geo.Ao o) (m.Co o) (s.H (m.Juo o)) (s.H (m.Jdo o)) (inp.u_o o) (m.orifice o) := by
  rw [h.steady.orifices o ho]
  exact orificeLimit_id (h.proper.limit o ho)

theorem Alike.orifice' (h : Alike m geo inp inp' s s' zI) {o : ℕ} (ho : o < m.n_o) :
    s'.Qo o = orificeRaw m.g (geo.Ao o) (m.Co o) (s'.H (m.Juo o)) (s'.H (m.Jdo o)) (inp.u_o o) (m.orifice o) := by
  rw [h.symm.orifice ho, h.u_o o ho]

theorem Alike.weir' (h : Alike m geo inp inp' s s' zI) {w : ℕ} (hw : w < m.n_w) :
    s'.Qw w = weirFlow (s'.H (m.Juw w)) (s'.H (m.Jdw w)) (inp.u_w w) (m.weir w) := by
  rw [h.steady'.weirs w hw, h.u_w w hw]

theorem Alike.pump' (h : Alike m geo inp inp' s s' zI) {p : ℕ} (hp : p < m.n_p) :
    s'.Qp p = pumpFlow (s'.H (m.Jup p)) (s'.H (m.Jdp p)) (inp.u_p p) (m.pump p) := by
  rw [h.steady'.pumps p hp, h.u_p p hp]

/-- More flows from `u` to `d` when the head at `u` is higher and that at `d` lower. -/
def Orderly (s s' : Hyd) (u d : ℕ) (Q Q' : ℝ) : Prop :=
  (s.H u ≤ s'.H u → s'.H d ≤ s.H d → Q ≤ Q') ∧ (s'.H u ≤ s.H u → s.H d ≤ s'.H d → Q' ≤ Q)

theorem Alike.orderly_link (h : Alike m geo inp inp' s s' zI) {k : ℕ} (hk : k < m.ix.NK) :
    Orderly s s' (m.Ju k) (m.Jd k) (s.Qu k) (s'.Qu k) := by
  have c := h.consistent
  have a := (C180_superlink c h.physical h.bed h.under h.steady hk (h.lat k hk)).2.2
  have b := (C180_superlink c h.physical' h.bed h.under' h.steady' hk (h.lat' k hk)).2.2
  have st := fun x y => linkLoss_strict (a := x) (b := y) c h.physical h.resisting hk
  constructor <;> intro h1 h2 <;> by_contra hn
  · have := st _ _ (not_le.mp hn); linarith
  · have := st _ _ (not_le.mp hn); linarith

theorem Alike.orderly_weir (h : Alike m geo inp inp' s s' zI) {w : ℕ} (hw : w < m.n_w) :
    Orderly s s' (m.Juw w) (m.Jdw w) (s.Qw w) (s'.Qw w) := by
  rw [h.weir' hw, h.steady.weirs w hw]
  exact ⟨fun a b => weir_mono (h.weirs w hw).1 (h.weirs w hw).2 a b,
    fun a b => weir_mono (h.weirs w hw).1 (h.weirs w hw).2 a b⟩

theorem Alike.orderly_orifice (h : Alike m geo inp inp' s s' zI) {o : ℕ} (ho : o < m.n_o) :
    Orderly s s' (m.Juo o) (m.Jdo o) (s.Qo o) (s'.Qo o) := by
  rw [h.orifice' ho, h.orifice ho]
  exact ⟨fun a b => orifice_mono h.physical.g_pos.le (h.proper.opening o ho) a b (h.side o ho),
    fun a b => orifice_mono h.physical.g_pos.le (h.proper.opening o ho) a b (h.side o ho).symm⟩

theorem Alike.orderly_pump (h : Alike m geo inp inp' s s' zI) {p : ℕ} (hp : p < m.n_p) :
    Orderly s s' (m.Jup p) (m.Jdp p) (s.Qp p) (s'.Qp p) := by
  rw [h.pump' hp, h.steady.pumps p hp]
  exact ⟨fun a b => pump_mono (h.proper.pump p hp) (h.physical.u_p p hp) a b,
    fun a b => pump_mono (h.proper.pump p hp) (h.physical.u_p p hp) a b⟩

/-- One where the head has fallen. -/
def fallen (s s' : Hyd) (i : ℕ) : ℝ := if s'.H i < s.H i then 1 else 0

theorem Orderly.gain {u d : ℕ} {Q Q' : ℝ} (h : Orderly s s' u d Q Q') :
    0 ≤ (fallen s s' d - fallen s s' u) * (Q' - Q) := by
  unfold fallen
  by_cases hd : s'.H d < s.H d <;> by_cases hu : s'.H u < s.H u
  · simp [hd, hu]
  · simpa [hd, hu] using h.1 (not_lt.mp hu) hd.le
  · simpa [hd, hu] using h.2 hu.le (not_lt.mp hd)
  · simp [hd, hu]

/-- Between the superjunctions whose heads have fallen and the others, no flow has changed. -/
theorem none_across (h : Alike m geo inp inp' s s' zI)
    (more : ∀ i, i < m.M → m.bc i = false → inp.Q_in i ≤ inp'.Q_in i)
    (higher : ∀ i, i < m.M → m.bc i = true → s.H i ≤ s'.H i) :
    (∀ k, k < m.ix.NK → (fallen s s' (m.Jd k) - fallen s s' (m.Ju k)) * (s'.Qu k - s.Qu k) = 0) ∧
    (∀ o, o < m.n_o → (fallen s s' (m.Jdo o) - fallen s s' (m.Juo o)) * (s'.Qo o - s.Qo o) = 0) ∧
    (∀ w, w < m.n_w → (fallen s s' (m.Jdw w) - fallen s s' (m.Juw w)) * (s'.Qw w - s.Qw w) = 0) ∧
    (∀ p, p < m.n_p → (fallen s s' (m.Jdp p) - fallen s s' (m.Jup p)) * (s'.Qp p - s.Qp p) = 0) := by
  have c := h.consistent
  have into : ∀ t : Hyd, ∑ i ∈ Finset.range m.M, fallen s s' i * (netInto m.ix.NK m.Ju m.Jd t.Qu t.Qd i
        + netInto m.n_o m.Juo m.Jdo t.Qo t.Qo i + netInto m.n_w m.Juw m.Jdw t.Qw t.Qw i
        + netInto m.n_p m.Jup m.Jdp t.Qp t.Qp i)
      = ∑ k ∈ Finset.range m.ix.NK, (fallen s s' (m.Jd k) * t.Qd k - fallen s s' (m.Ju k) * t.Qu k)
        + ∑ k ∈ Finset.range m.n_o, (fallen s s' (m.Jdo k) * t.Qo k - fallen s s' (m.Juo k) * t.Qo k)
        + ∑ k ∈ Finset.range m.n_w, (fallen s s' (m.Jdw k) * t.Qw k - fallen s s' (m.Juw k) * t.Qw k)
        + ∑ k ∈ Finset.range m.n_p, (fallen s s' (m.Jdp k) * t.Qp k - fallen s s' (m.Jup k) * t.Qp k) := by
    intro t
    simp only [mul_add, Finset.sum_add_distrib, sum_netInto c.Ju c.Jd, sum_netInto c.Juo c.Jdo, sum_netInto c.Juw c.Jdw,
      sum_netInto c.Jup c.Jdp]
  have z : ∑ i ∈ Finset.range m.M, fallen s s' i * (netInto m.ix.NK m.Ju m.Jd s'.Qu s'.Qd i
        + netInto m.n_o m.Juo m.Jdo s'.Qo s'.Qo i + netInto m.n_w m.Juw m.Jdw s'.Qw s'.Qw i
        + netInto m.n_p m.Jup m.Jdp s'.Qp s'.Qp i)
      ≤ ∑ i ∈ Finset.range m.M, fallen s s' i * (netInto m.ix.NK m.Ju m.Jd s.Qu s.Qd i
        + netInto m.n_o m.Juo m.Jdo s.Qo s.Qo i + netInto m.n_w m.Juw m.Jdw s.Qw s.Qw i
        + netInto m.n_p m.Jup m.Jdp s.Qp s.Qp i) := by
    refine Finset.sum_le_sum fun i hi => ?_
    have hi := Finset.mem_range.mp hi
    rcases hb : m.bc i with _ | _
    · have a := h.steady.balance i hi hb
      have b := h.steady'.balance i hi hb
      have q := more i hi hb
      have f0 : 0 ≤ fallen s s' i := by unfold fallen; split_ifs <;> norm_num
      exact mul_le_mul_of_nonneg_left (by linarith) f0
    · have : fallen s s' i = 0 := if_neg (not_lt.mpr (higher i hi hb))
      rw [this, zero_mul, zero_mul]
  rw [into, into] at z
  have thr : ∀ k ∈ Finset.range m.ix.NK, s.Qd k = s.Qu k ∧ s'.Qd k = s'.Qu k := fun k hk =>
    ⟨(C180_superlink c h.physical h.bed h.under h.steady (Finset.mem_range.mp hk) (h.lat k (Finset.mem_range.mp hk))).1,
      (C180_superlink c h.physical' h.bed h.under' h.steady' (Finset.mem_range.mp hk) (h.lat' k (Finset.mem_range.mp hk))).1⟩
  have tot : ∑ k ∈ Finset.range m.ix.NK, (fallen s s' (m.Jd k) - fallen s s' (m.Ju k)) * (s'.Qu k - s.Qu k)
      + ∑ k ∈ Finset.range m.n_o, (fallen s s' (m.Jdo k) - fallen s s' (m.Juo k)) * (s'.Qo k - s.Qo k)
      + ∑ k ∈ Finset.range m.n_w, (fallen s s' (m.Jdw k) - fallen s s' (m.Juw k)) * (s'.Qw k - s.Qw k)
      + ∑ k ∈ Finset.range m.n_p, (fallen s s' (m.Jdp k) - fallen s s' (m.Jup k)) * (s'.Qp k - s.Qp k) ≤ 0 := by
    have e1 : ∑ k ∈ Finset.range m.ix.NK, (fallen s s' (m.Jd k) - fallen s s' (m.Ju k)) * (s'.Qu k - s.Qu k)
        = ∑ k ∈ Finset.range m.ix.NK, (fallen s s' (m.Jd k) * s'.Qd k - fallen s s' (m.Ju k) * s'.Qu k)
          - ∑ k ∈ Finset.range m.ix.NK, (fallen s s' (m.Jd k) * s.Qd k - fallen s s' (m.Ju k) * s.Qu k) := by
      rw [← Finset.sum_sub_distrib]
      refine Finset.sum_congr rfl fun k hk => ?_
      rw [(thr k hk).1, (thr k hk).2]; ring
    have e : ∀ (n : ℕ) (Ju Jd : ℕ → ℕ) (Q Q' : ℕ → ℝ),
        ∑ k ∈ Finset.range n, (fallen s s' (Jd k) - fallen s s' (Ju k)) * (Q' k - Q k)
        = ∑ k ∈ Finset.range n, (fallen s s' (Jd k) * Q' k - fallen s s' (Ju k) * Q' k)
          - ∑ k ∈ Finset.range n, (fallen s s' (Jd k) * Q k - fallen s s' (Ju k) * Q k) := by
      intro n Ju Jd Q Q'
      rw [← Finset.sum_sub_distrib]
      exact Finset.sum_congr rfl fun k _ => by ring
    rw [e1, e, e, e]
    linarith
  have n1 : ∀ k ∈ Finset.range m.ix.NK, 0 ≤ (fallen s s' (m.Jd k) - fallen s s' (m.Ju k)) * (s'.Qu k - s.Qu k) :=
    fun k hk => (h.orderly_link (Finset.mem_range.mp hk)).gain
  have n2 : ∀ k ∈ Finset.range m.n_o, 0 ≤ (fallen s s' (m.Jdo k) - fallen s s' (m.Juo k)) * (s'.Qo k - s.Qo k) :=
    fun k hk => (h.orderly_orifice (Finset.mem_range.mp hk)).gain
  have n3 : ∀ k ∈ Finset.range m.n_w, 0 ≤ (fallen s s' (m.Jdw k) - fallen s s' (m.Juw k)) * (s'.Qw k - s.Qw k) :=
    fun k hk => (h.orderly_weir (Finset.mem_range.mp hk)).gain
  have n4 : ∀ k ∈ Finset.range m.n_p, 0 ≤ (fallen s s' (m.Jdp k) - fallen s s' (m.Jup k)) * (s'.Qp k - s.Qp k) :=
    fun k hk => (h.orderly_pump (Finset.mem_range.mp hk)).gain
  have s1 := Finset.sum_nonneg n1
  have s2 := Finset.sum_nonneg n2
  have s3 := Finset.sum_nonneg n3
  have s4 := Finset.sum_nonneg n4
  exact ⟨fun k hk => (Finset.sum_eq_zero_iff_of_nonneg n1).mp (by linarith) k (Finset.mem_range.mpr hk),
    fun k hk => (Finset.sum_eq_zero_iff_of_nonneg n2).mp (by linarith) k (Finset.mem_range.mpr hk),
    fun k hk => (Finset.sum_eq_zero_iff_of_nonneg n3).mp (by linarith) k (Finset.mem_range.mpr hk),
    fun k hk => (Finset.sum_eq_zero_iff_of_nonneg n4).mp (by linarith) k (Finset.mem_range.mpr hk)⟩

theorem same_out {u d : ℕ} {Q Q' : ℝ} (e : (fallen s s' d - fallen s s' u) * (Q' - Q) = 0)
    (ne : ¬ (s'.H u < s.H u ↔ s'.H d < s.H d)) : Q' = Q := by
  unfold fallen at e
  by_cases hd : s'.H d < s.H d <;> by_cases hu : s'.H u < s.H u <;> simp [hd, hu] at e ne <;> linarith

/-- If the head at `a` has not fallen, nor has it where the water comes from. -/
theorem no_fall (h : Alike m geo inp inp' s s' zI)
    (more : ∀ i, i < m.M → m.bc i = false → inp.Q_in i ≤ inp'.Q_in i)
    (higher : ∀ i, i < m.M → m.bc i = true → s.H i ≤ s'.H i) {a b : ℕ} (r : RunsTo m s b a) (ha : s.H a ≤ s'.H a) :
    s.H b ≤ s'.H b := by
  by_contra hb
  have hb := not_le.mp hb
  have ha' := not_lt.mpr ha
  have c := h.consistent
  obtain ⟨L, O, W, P⟩ := none_across h more higher
  rcases r with ⟨k, hk, ⟨rfl, rfl⟩ | ⟨rfl, rfl⟩⟩ | ⟨w, hw, ⟨rfl, rfl, q⟩ | ⟨rfl, rfl, q⟩⟩ | ⟨o, ho, ⟨rfl, rfl, q⟩ | ⟨rfl, rfl, q⟩⟩
    | ⟨p, hp, rfl, rfl, q, lo, hi⟩
  · have e := same_out (L k hk) (by tauto)
    have x := (C180_superlink c h.physical h.bed h.under h.steady hk (h.lat k hk)).2.2
    have y := (C180_superlink c h.physical' h.bed h.under' h.steady' hk (h.lat' k hk)).2.2
    rw [e] at y; linarith
  · have e := same_out (L k hk) (by tauto)
    have x := (C180_superlink c h.physical h.bed h.under h.steady hk (h.lat k hk)).2.2
    have y := (C180_superlink c h.physical' h.bed h.under' h.steady' hk (h.lat' k hk)).2.2
    rw [e] at y; linarith
  · have e := same_out (W w hw) (by tauto)
    rw [h.weir' hw, h.steady.weirs w hw] at e
    rw [h.steady.weirs w hw] at q
    exact (weir_strict_up (h.weirs w hw).1 (h.weirs w hw).2 hb ha q).ne e
  · have e := same_out (W w hw) (by tauto)
    rw [h.weir' hw, h.steady.weirs w hw] at e
    rw [h.steady.weirs w hw] at q
    exact (weir_strict_down (h.weirs w hw).1 (h.weirs w hw).2 ha hb q).ne e.symm
  · have e := same_out (O o ho) (by tauto)
    rw [h.orifice' ho, h.orifice ho] at e
    rw [h.orifice ho] at q
    exact (orifice_strict_up h.physical.g_pos.le (h.proper.opening o ho) hb ha (h.side o ho).symm q).ne e
  · have e := same_out (O o ho) (by tauto)
    rw [h.orifice' ho, h.orifice ho] at e
    rw [h.orifice ho] at q
    exact (orifice_strict_down h.physical.g_pos.le (h.proper.opening o ho) ha hb (h.side o ho) q).ne e.symm
  · have e := same_out (P p hp) (by tauto)
    rw [h.pump' hp, h.steady.pumps p hp] at e
    rw [h.steady.pumps p hp] at q
    exact (pump_strict (h.proper.pump p hp) (h.physical.u_p p hp) hb ha lo hi q).ne e

/-! ### C186 -/

/-- **C186 (heads).** With at least as much inflow at every free superjunction and at least as high fixed heads, the steady head
is at least as high wherever the water can be followed to a fixed head. -/
theorem C186_heads (h : Alike m geo inp inp' s s' zI)
    (more : ∀ i, i < m.M → m.bc i = false → inp.Q_in i ≤ inp'.Q_in i)
    (higher : ∀ i, i < m.M → m.bc i = true → s.H i ≤ s'.H i) {a b : ℕ} (ha : a < m.M) (fx : m.bc a = true)
    (ba : Relation.ReflTransGen (RunsTo m s) b a) : s.H b ≤ s'.H b := by
  induction ba using Relation.ReflTransGen.head_induction_on with
  | refl => exact higher a ha fx
  | head r _ ih => exact no_fall h more higher r ih

/-- **C186 (one steady level).** Two steady states with the same inflows and fixed heads have the same head wherever the water
of each can be followed to a fixed head. -/
theorem C186_unique (h : Alike m geo inp inp' s s' zI) (same : ∀ i, i < m.M → m.bc i = false → inp.Q_in i = inp'.Q_in i)
    (fixed : ∀ i, i < m.M → m.bc i = true → s.H i = s'.H i) {a a' b : ℕ} (ha : a < m.M) (fx : m.bc a = true)
    (ha' : a' < m.M) (fx' : m.bc a' = true) (ba : Relation.ReflTransGen (RunsTo m s) b a)
    (ba' : Relation.ReflTransGen (RunsTo m s') b a') : s.H b = s'.H b :=
  le_antisymm (C186_heads h (fun i hi hb => (same i hi hb).le) (fun i hi hb => (fixed i hi hb).le) ha fx ba)
    (C186_heads h.symm (fun i hi hb => (same i hi hb).ge) (fun i hi hb => (fixed i hi hb).ge) ha' fx' ba')

/-- **C186 (flows).** Between superjunctions at the same heads, superlinks, orifices, weirs and pumps carry the same. -/
theorem C186_flows (h : Alike m geo inp inp' s s' zI) :
    (∀ k, k < m.ix.NK → s.H (m.Ju k) = s'.H (m.Ju k) → s.H (m.Jd k) = s'.H (m.Jd k) → s'.Qu k = s.Qu k) ∧
    (∀ o, o < m.n_o → s.H (m.Juo o) = s'.H (m.Juo o) → s.H (m.Jdo o) = s'.H (m.Jdo o) → s'.Qo o = s.Qo o) ∧
    (∀ w, w < m.n_w → s.H (m.Juw w) = s'.H (m.Juw w) → s.H (m.Jdw w) = s'.H (m.Jdw w) → s'.Qw w = s.Qw w) ∧
    (∀ p, p < m.n_p → s.H (m.Jup p) = s'.H (m.Jup p) → s.H (m.Jdp p) = s'.H (m.Jdp p) → s'.Qp p = s.Qp p) :=
  ⟨fun _ hk u d => le_antisymm ((h.orderly_link hk).2 u.ge d.le) ((h.orderly_link hk).1 u.le d.ge),
    fun _ hk u d => le_antisymm ((h.orderly_orifice hk).2 u.ge d.le) ((h.orderly_orifice hk).1 u.le d.ge),
    fun _ hk u d => le_antisymm ((h.orderly_weir hk).2 u.ge d.le) ((h.orderly_weir hk).1 u.le d.ge),
    fun _ hk u d => le_antisymm ((h.orderly_pump hk).2 u.ge d.le) ((h.orderly_pump hk).1 u.le d.ge)⟩

/-! ### A case meeting the hypotheses -/

/-- A basin (0) whose overflow, one metre wide with its crest at 1, falls to a held level (1). -/
def overflow : Model :=
  { exModel false with
    ix := { NK := 0, nk := fun _ => 2, I_1k := fun _ => 0, i_1k := fun _ => 0 }, N := 0
    bc := fun i => i == 1, n_o := 0, n_p := 0, weir := fun _ => ⟨1, 0, 1, 1, 0, 1, 1⟩ }

/-- Inflow `q` to the basin. -/
def overflowInp (q : ℝ) : Inputs := { exInp with Q_in := fun i => if i = 0 then q else 0 }

/-- Head `H` in the basin, `q` over the crest. -/
def overflowAt (H q : ℝ) : Hyd := { exStill with H := fun i => if i = 0 then H else 0, Qw := fun _ => q }

theorem overflow_steady {x : ℝ} (hx : 0 ≤ x) : Steady overflow exGeo (overflowInp (x ^ 3)) (overflowAt (1 + x ^ 2) (x ^ 3)) := by
  refine ⟨fun i _ _ f hf => by simp [overflowInp, exInp] at hf, fun i hi hb => ?_, fun k hk => absurd hk (Nat.not_lt_zero _),
    fun k hk => absurd hk (Nat.not_lt_zero _), fun k hk => absurd hk (Nat.not_lt_zero _),
    fun k hk => absurd hk (Nat.not_lt_zero _), fun o ho => absurd ho (Nat.not_lt_zero _), fun w _ => ?_,
    fun o ho => absurd ho (Nat.not_lt_zero _)⟩
  · obtain rfl | rfl : i = 0 ∨ i = 1 := by simp [overflow, exModel] at hi; omega
    · simp [netInto, overflow, exModel, overflowInp, overflowAt]
    · simp [overflow] at hb
  · rw [weirFlow_law]
    have c : (overflow.weir w).crest ((overflowInp (x ^ 3)).u_w w) = 1 := by simp [overflow, overflowInp, exInp, Weir.crest]
    have a : (overflowAt (1 + x ^ 2) (x ^ 3)).H (overflow.Juw w) = 1 + x ^ 2 := by simp [overflow, overflowAt, exModel]
    have b : (overflowAt (1 + x ^ 2) (x ^ 3)).H (overflow.Jdw w) = 0 := by simp [overflow, overflowAt, exModel]
    rw [c, a, b, max_eq_left (by nlinarith), max_eq_right (by norm_num), add_sub_cancel_left,
      weirLaw_pos (sq_nonneg x) (by norm_num [overflow]) (by norm_num [overflow]), Real.sqrt_sq hx]
    simp [overflow, overflowAt]
    ring

theorem overflow_alike {x y : ℝ} (hx : 0 ≤ x) (hy : 0 ≤ y) :
    Alike overflow exGeo (overflowInp (x ^ 3)) (overflowInp (y ^ 3)) (overflowAt (1 + x ^ 2) (x ^ 3))
      (overflowAt (1 + y ^ 2) (y ^ 3)) exBed where
  consistent := by
    refine ⟨⟨fun _ h => absurd h (Nat.not_lt_zero _), fun _ _ h => absurd h (Nat.not_lt_zero _),
      fun _ _ h => absurd h (Nat.not_lt_zero _)⟩, fun _ h => absurd h (Nat.not_lt_zero _), fun _ h => absurd h (Nat.not_lt_zero _),
      ?_, ?_, ?_, ?_, ?_, ?_, ?_, ?_⟩ <;> simp [overflow, exModel]
  physical := by constructor <;> intros <;> norm_num [overflow, overflowInp, exModel, exGeo, exInp]
  physical' := by constructor <;> intros <;> norm_num [overflow, overflowInp, exModel, exGeo, exInp]
  resisting := ⟨fun _ h => absurd h (Nat.not_lt_zero _), fun _ h => absurd h (Nat.not_lt_zero _)⟩
  bed := ⟨fun _ h => absurd h (Nat.not_lt_zero _), fun _ h => absurd h (Nat.not_lt_zero _), fun _ h => absurd h (Nat.not_lt_zero _)⟩
  lat := fun _ h => absurd h (Nat.not_lt_zero _)
  lat' := fun _ h => absurd h (Nat.not_lt_zero _)
  under := ⟨fun _ h => absurd h (Nat.not_lt_zero _), fun _ h => absurd h (Nat.not_lt_zero _)⟩
  under' := ⟨fun _ h => absurd h (Nat.not_lt_zero _), fun _ h => absurd h (Nat.not_lt_zero _)⟩
  u_o := fun _ _ => rfl
  u_w := fun _ _ => rfl
  u_p := fun _ _ => rfl
  weirs := fun _ _ => by norm_num [overflow]
  proper := by constructor <;> intro _ h <;> exact absurd h (Nat.not_lt_zero _)
  proper' := by constructor <;> intro _ h <;> exact absurd h (Nat.not_lt_zero _)
  side := fun _ h => absurd h (Nat.not_lt_zero _)
  steady := overflow_steady hx
  steady' := overflow_steady hy

/-- Eight times the inflow raises the basin from 2 to 5. -/
example : (overflowAt (1 + 1 ^ 2) (1 ^ 3)).H 0 ≤ (overflowAt (1 + 2 ^ 2) (2 ^ 3)).H 0 := by
  refine C186_heads (overflow_alike (x := 1) (y := 2) (by norm_num) (by norm_num)) (fun i _ _ => ?_) (fun i hi hb => ?_)
    (a := 1) (by norm_num [overflow, exModel]) rfl
    (.single (Or.inr (Or.inl ⟨0, by norm_num [overflow, exModel], Or.inl ⟨rfl, rfl, by norm_num [overflowAt]⟩⟩)))
  · simp only [overflowInp]; split_ifs <;> norm_num
  · obtain rfl | rfl : i = 0 ∨ i = 1 := by simp [overflow, exModel] at hi; omega
    · simp [overflow] at hb
    · norm_num [overflowAt]

/-- No other head in the basin is steady with that inflow, as long as some water passes the crest. -/
example {y : ℝ} (hy : 0 < y) (same : y ^ 3 = 1) : 1 + y ^ 2 = 2 := by
  have := C186_unique (overflow_alike (x := 1) (y := y) (by norm_num) hy.le) (fun i _ _ => by simp [overflowInp, same])
    (fun i hi hb => by
      obtain rfl | rfl : i = 0 ∨ i = 1 := by simp [overflow, exModel] at hi; omega
      · simp [overflow] at hb
      · simp [overflowAt])
    (a := 1) (a' := 1) (b := 0) (by norm_num [overflow, exModel]) rfl (by norm_num [overflow, exModel]) rfl
    (.single (Or.inr (Or.inl ⟨0, by norm_num [overflow, exModel], Or.inl ⟨rfl, rfl, by norm_num [overflowAt]⟩⟩)))
    (.single (Or.inr (Or.inl ⟨0, by norm_num [overflow, exModel], Or.inl ⟨rfl, rfl, by simp only [overflowAt]; positivity⟩⟩)))
  simp [overflowAt] at this
  linarith

/-- The two states of C186 cannot be on different sides of an orifice's crown: with sill at 0 and height 1, an orifice
discharging freely passes as much under 1 as under 1.5. -/
example : orificeRaw 2 1 1 1 0 1 ⟨0, 0, 1, 1, false⟩ = orificeRaw 2 1 1 1.5 0 1 ⟨0, 0, 1, 1, false⟩ := by
  have o1 : (0 : ℝ) ≤ Orifice.opening ⟨0, 0, 1, 1, false⟩ 1 := by norm_num [Orifice.opening]
  rw [orificeRaw_forward (by norm_num) o1 (by norm_num) (by simp), orificeRaw_forward (by norm_num) o1 (by norm_num) (by simp)]
  congr 1
  have a : drive 0 1 1 0 = 1 := by norm_num [drive]
  have b : drive 0 1 1.5 0 = 1 := by norm_num [drive]
  simp only [Orifice.bottom, Orifice.opening, add_zero, mul_one]
  norm_num [a, b]
  norm_num [drive]

end

end Pipedream.Step
