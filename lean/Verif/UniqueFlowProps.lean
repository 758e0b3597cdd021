import Verif.PerpetualProps

/-!
# C180: given sections determine the steady flow
-/

namespace Pipedream.Step

open Pipedream.Sweep Pipedream.Link Pipedream.Superlink Pipedream.Control Pipedream.Network

variable {m : Model} {geo : Geo} {inp : Inputs} {wk : Work} {prev s s' : Hyd} {co : Coef ℝ} {x zI : ℕ → ℝ}

noncomputable section

/-! ### Specification -/

/-- Both ends of all superlinks are under water. -/
structure Submerged (m : Model) (s : Hyd) : Prop where
  up : ∀ k, k < m.ix.NK → m.z_uk k ≤ s.H (m.Ju k)
  down : ∀ k, k < m.ix.NK → m.z_dk k ≤ s.H (m.Jd k)

/-- Superlink `k` joins superjunctions `a` and `b`. -/
def Joins (m : Model) (a b : ℕ) : Prop :=
  ∃ k, k < m.ix.NK ∧ ((m.Ju k = a ∧ m.Jd k = b) ∨ (m.Ju k = b ∧ m.Jd k = a))

/-! ### Losses grow with the flow -/

theorem odd_mono {φ : ℝ → ℝ} (h1 : ∀ x, 0 < x → 0 < φ x)
    (hm : ∀ x y, 0 ≤ x → x ≤ y → φ x ≤ φ y) {a b : ℝ} (h : a < b) : φ |a| * a < φ |b| * b := by
  rcases le_or_gt 0 a with ha | ha
  · have hb := lt_of_le_of_lt ha h
    rw [abs_of_nonneg ha, abs_of_pos hb]
    have p := h1 b hb
    have q := hm a b ha h.le
    nlinarith
  · rcases le_or_gt b 0 with hb | hb
    · rw [abs_of_neg ha, abs_of_nonpos hb]
      have p := h1 (-a) (by linarith)
      have q := hm (-b) (-a) (by linarith) (by linarith)
      nlinarith
    · have p := mul_pos (h1 _ (abs_pos.mpr hb.ne')) hb
      have q := mul_neg_of_pos_of_neg (h1 _ (abs_pos.mpr ha.ne)) ha
      linarith

/-- Head lost in link `j` of superlink `k` at flow `q`. -/
def lossAt (m : Model) (geo : Geo) (k j : ℕ) (q : ℝ) : ℝ :=
  let i := m.ix.i_1k k + j
  (frictionLaw m.g (m.method i) q (m.dx i) (geo.A i) (geo.R i) (m.n i)
    + (if m.ctrl i then m.C i * geo.A i * |q| / m.A_c i ^ 2 else 0)) * q / (m.g * geo.A i)

theorem lossAt_strict (ps : PhysicalStep m geo inp) (rs : Resisting m) {k j : ℕ} (hl : m.ix.i_1k k + j < m.N) {a b : ℝ}
    (h : a < b) : lossAt m geo k j a < lossAt m geo k j b := by
  have hg := ps.g_pos
  have hA := ps.A_pos _ hl
  have hR := ps.R_pos _ hl
  have hn := ps.n_pos _ hl
  have hd := ps.dx_pos _ hl
  have key := odd_mono (φ := fun q => frictionLaw m.g (m.method (m.ix.i_1k k + j)) q (m.dx (m.ix.i_1k k + j))
      (geo.A (m.ix.i_1k k + j)) (geo.R (m.ix.i_1k k + j)) (m.n (m.ix.i_1k k + j))
    + (if m.ctrl (m.ix.i_1k k + j) then m.C (m.ix.i_1k k + j) * geo.A (m.ix.i_1k k + j) * |q| / m.A_c (m.ix.i_1k k + j) ^ 2
      else 0)) ?_ ?_ h
  · simp only [abs_abs] at key
    have e : ∀ q : ℝ, frictionLaw m.g (m.method (m.ix.i_1k k + j)) |q| (m.dx (m.ix.i_1k k + j))
        (geo.A (m.ix.i_1k k + j)) (geo.R (m.ix.i_1k k + j)) (m.n (m.ix.i_1k k + j))
        = frictionLaw m.g (m.method (m.ix.i_1k k + j)) q (m.dx (m.ix.i_1k k + j))
        (geo.A (m.ix.i_1k k + j)) (geo.R (m.ix.i_1k k + j)) (m.n (m.ix.i_1k k + j)) := by
      intro q; unfold frictionLaw; simp only [abs_abs]
    rw [e, e] at key
    simp only [lossAt]
    exact div_lt_div_of_pos_right key (by positivity)
  · intro q hq
    refine add_pos_of_pos_of_nonneg (friction_pos (rs.method _ hl) hg hd hA hR hn hq.ne') ?_
    split_ifs with hc
    · have := rs.structures _ hl hc
      positivity
    · exact le_rfl
  · intro x y hx hxy
    have hy := hx.trans hxy
    refine add_le_add ?_ ?_
    · unfold frictionLaw
      rcases rs.method _ hl with e | e
      · simp only [e, if_true, abs_of_nonneg hx, abs_of_nonneg hy]
        gcongr
      · simp only [e, one_ne_zero, if_false, if_true, abs_of_nonneg hx, abs_of_nonneg hy]
        gcongr
    · split_ifs with hc
      · have := rs.structures _ hl hc
        rw [abs_of_nonneg hx, abs_of_nonneg hy]
        gcongr
      · exact le_rfl

/-- Head lost in superlink `k` at flow `q`, including entrance and exit. -/
def linkLoss (m : Model) (geo : Geo) (k : ℕ) (q : ℝ) : ℝ :=
  ∑ j ∈ Finset.range (m.ix.nk k), lossAt m geo k j q
    + |q| * m.C_uk k / (2 * m.g * geo.A_u k ^ 2) * q + |q| * m.C_dk k / (2 * m.g * geo.A_d k ^ 2) * q

theorem linkLoss_strict (c : m.Consistent) (ps : PhysicalStep m geo inp) (rs : Resisting m) {k : ℕ} (hk : k < m.ix.NK)
    {a b : ℝ} (h : a < b) : linkLoss m geo k a < linkLoss m geo k b := by
  have n1 := c.layout.pos k hk
  have lt := c.inN k hk
  have Cu := ps.Cu k hk
  have Cd := ps.Cd k hk
  have hg := ps.g_pos
  have sq : |a| * a ≤ |b| * b := (odd_mono (φ := fun x => x) (fun _ h => h) (fun _ _ _ h => h) h).le
  have e : ∀ C A q : ℝ, |q| * C / (2 * m.g * A ^ 2) * q = C / (2 * m.g * A ^ 2) * (|q| * q) := by intros; ring
  unfold linkLoss
  simp only [e]
  have s1 : ∑ j ∈ Finset.range (m.ix.nk k), lossAt m geo k j a < ∑ j ∈ Finset.range (m.ix.nk k), lossAt m geo k j b :=
    Finset.sum_lt_sum_of_nonempty ⟨0, Finset.mem_range.mpr n1⟩ fun j hj =>
      lossAt_strict ps rs (by have := Finset.mem_range.mp hj; omega) h
  have s2 : m.C_uk k / (2 * m.g * geo.A_u k ^ 2) * (|a| * a) ≤ m.C_uk k / (2 * m.g * geo.A_u k ^ 2) * (|b| * b) :=
    mul_le_mul_of_nonneg_left sq (by positivity)
  have s3 : m.C_dk k / (2 * m.g * geo.A_d k ^ 2) * (|a| * a) ≤ m.C_dk k / (2 * m.g * geo.A_d k ^ 2) * (|b| * b) :=
    mul_le_mul_of_nonneg_left sq (by positivity)
  linarith

/-- **C180 (one superlink).** The heads at the ends of a steady superlink whose ends are under water differ by what it loses at
its flow. -/
theorem C180_superlink (c : m.Consistent) (ps : PhysicalStep m geo inp) (bed : Bed m zI) (sb : Submerged m s)
    (sd : Steady m geo inp s) {k : ℕ} (hk : k < m.ix.NK) (h0 : ∀ j, j ≤ m.ix.nk k → inp.Q_0Ik (m.ix.I_1k k + j) = 0) :
    s.Qd k = s.Qu k ∧ (∀ j, j < m.ix.nk k → s.Q (m.ix.i_1k k + j) = s.Qu k) ∧
    s.H (m.Ju k) - s.H (m.Jd k) = linkLoss m geo k (s.Qu k) := by
  obtain ⟨a, l⟩ := steady_through sd hk h0
  have n1 := c.layout.pos k hk
  have hQ : ∀ j, j < m.ix.nk k → s.Q (m.ix.i_1k k + j) = s.Qu k := by
    intro j hj
    have := l j hj.le
    unfold leaving at this
    rwa [if_neg (by omega)] at this
  have hd : s.Qd k = s.Qu k := by
    have := l (m.ix.nk k) le_rfl
    unfold leaving at this
    rwa [if_pos rfl] at this
  refine ⟨hd, hQ, ?_⟩
  have f := fall_sum (s := s) bed hk _ le_rfl
  rw [Finset.sum_congr rfl fun j hj => C172_surface ps c sd hk h0 (Finset.mem_range.mp hj), bed.up k hk, bed.down k hk] at f
  have e : ∀ j ∈ Finset.range (m.ix.nk k), headLoss m geo s k j = lossAt m geo k j (s.Qu k) := by
    intro j hj
    simp only [headLoss, lossAt, hQ j (Finset.mem_range.mp hj)]
  rw [Finset.sum_congr rfl e] at f
  have hu := sd.up k hk
  have hdn := sd.down k hk
  rw [if_pos (sb.up k hk)] at hu
  rw [if_pos (sb.down k hk), hd] at hdn
  unfold linkLoss
  linarith

/-- **C180.** Take two steady states of a network without controls and lateral inflow which have the same sections (as full
pipes do), inflows and fixed heads, and all pipe ends under water. They have the same flow in every superlink, and the heads
at both ends of a superlink differ by the same amount in both. -/
theorem C180_flows (c : m.Consistent) (ps : PhysicalStep m geo inp) (rs : Resisting m) (bed : Bed m zI)
    (no : m.n_o = 0) (nw : m.n_w = 0) (np : m.n_p = 0)
    (lat : ∀ k, k < m.ix.NK → ∀ j, j ≤ m.ix.nk k → inp.Q_0Ik (m.ix.I_1k k + j) = 0)
    (sb : Submerged m s) (sb' : Submerged m s') (sd : Steady m geo inp s) (sd' : Steady m geo inp s')
    (fixed : ∀ i, i < m.M → m.bc i = true → s.H i = s'.H i) {k : ℕ} (hk : k < m.ix.NK) :
    s.Qu k = s'.Qu k ∧ s.Qd k = s'.Qd k ∧ (∀ j, j < m.ix.nk k → s.Q (m.ix.i_1k k + j) = s'.Q (m.ix.i_1k k + j)) ∧
    s.H (m.Ju k) - s'.H (m.Ju k) = s.H (m.Jd k) - s'.H (m.Jd k) := by
  have a := fun k hk => C180_superlink c ps bed sb sd hk (lat k hk)
  have b := fun k hk => C180_superlink c ps bed sb' sd' hk (lat k hk)
  have bal : ∀ {t : Hyd}, Steady m geo inp t → ∀ i, i < m.M → m.bc i = false →
      netInto m.ix.NK m.Ju m.Jd t.Qu t.Qd i = -inp.Q_in i := by
    intro t st i hi hb
    have := st.balance i hi hb
    rw [no, nw, np] at this
    simp only [netInto, Finset.range_zero, Finset.sum_empty, add_zero] at this ⊢
    linarith
  have z : ∑ i ∈ Finset.range m.M, (s.H i - s'.H i) * netInto m.ix.NK m.Ju m.Jd s.Qu s.Qd i
      = ∑ i ∈ Finset.range m.M, (s.H i - s'.H i) * netInto m.ix.NK m.Ju m.Jd s'.Qu s'.Qd i := by
    refine Finset.sum_congr rfl fun i hi => ?_
    have hi := Finset.mem_range.mp hi
    rcases hb : m.bc i with _ | _
    · rw [bal sd i hi hb, bal sd' i hi hb]
    · rw [fixed i hi hb, sub_self, zero_mul, zero_mul]
  rw [sum_netInto c.Ju c.Jd, sum_netInto c.Ju c.Jd, ← sub_eq_zero, ← Finset.sum_sub_distrib] at z
  have e : ∀ k ∈ Finset.range m.ix.NK,
      (s.H (m.Jd k) - s'.H (m.Jd k)) * s.Qd k - (s.H (m.Ju k) - s'.H (m.Ju k)) * s.Qu k
        - ((s.H (m.Jd k) - s'.H (m.Jd k)) * s'.Qd k - (s.H (m.Ju k) - s'.H (m.Ju k)) * s'.Qu k)
      = -((s.Qu k - s'.Qu k) * (linkLoss m geo k (s.Qu k) - linkLoss m geo k (s'.Qu k))) := by
    intro k hk
    have hk := Finset.mem_range.mp hk
    rw [(a k hk).1, (b k hk).1, ← (a k hk).2.2, ← (b k hk).2.2]
    ring
  rw [Finset.sum_congr rfl e, Finset.sum_neg_distrib, neg_eq_zero] at z
  have pos : ∀ k, k < m.ix.NK → s.Qu k ≠ s'.Qu k →
      0 < (s.Qu k - s'.Qu k) * (linkLoss m geo k (s.Qu k) - linkLoss m geo k (s'.Qu k)) := by
    intro k hk ne
    rcases lt_or_gt_of_ne ne with h | h
    · exact mul_pos_of_neg_of_neg (by linarith) (by have := linkLoss_strict c ps rs hk h; linarith)
    · exact mul_pos (by linarith) (by have := linkLoss_strict c ps rs hk h; linarith)
  have nn : ∀ k ∈ Finset.range m.ix.NK,
      0 ≤ (s.Qu k - s'.Qu k) * (linkLoss m geo k (s.Qu k) - linkLoss m geo k (s'.Qu k)) := by
    intro k hk
    by_cases ne : s.Qu k = s'.Qu k
    · rw [ne, sub_self, zero_mul]
    · exact (pos k (Finset.mem_range.mp hk) ne).le
  have each := (Finset.sum_eq_zero_iff_of_nonneg nn).mp z
  have q : s.Qu k = s'.Qu k := by
    by_contra ne
    exact (pos k hk ne).ne' (each k (Finset.mem_range.mpr hk))
  refine ⟨q, by rw [(a k hk).1, (b k hk).1, q], fun j hj => by rw [(a k hk).2.1 j hj, (b k hk).2.1 j hj, q], ?_⟩
  have h1 := (a k hk).2.2
  have h2 := (b k hk).2.2
  rw [q] at h1
  linarith

/-- **C180 (heads).** The heads of superjunctions joined, directly or through others, to one with a fixed head are the same in
both states, and so are the depths in the superlinks between them. Elsewhere all heads joined differ by one amount. -/
theorem C180_heads (c : m.Consistent) (ps : PhysicalStep m geo inp) (rs : Resisting m) (bed : Bed m zI)
    (no : m.n_o = 0) (nw : m.n_w = 0) (np : m.n_p = 0)
    (lat : ∀ k, k < m.ix.NK → ∀ j, j ≤ m.ix.nk k → inp.Q_0Ik (m.ix.I_1k k + j) = 0)
    (sb : Submerged m s) (sb' : Submerged m s') (sd : Steady m geo inp s) (sd' : Steady m geo inp s')
    (fixed : ∀ i, i < m.M → m.bc i = true → s.H i = s'.H i) {a b : ℕ} (ab : Relation.ReflTransGen (Joins m) a b) :
    s.H a - s'.H a = s.H b - s'.H b ∧ (a < m.M → m.bc a = true → s.H b = s'.H b) := by
  have key : s.H a - s'.H a = s.H b - s'.H b := by
    induction ab with
    | refl => rfl
    | tail _ h ih =>
      obtain ⟨k, hk, ⟨rfl, rfl⟩ | ⟨rfl, rfl⟩⟩ := h
      · exact ih.trans (C180_flows c ps rs bed no nw np lat sb sb' sd sd' fixed hk).2.2.2
      · exact ih.trans (C180_flows c ps rs bed no nw np lat sb sb' sd sd' fixed hk).2.2.2.symm
  refine ⟨key, fun ha hb => ?_⟩
  rw [fixed a ha hb, sub_self] at key
  linarith

/-- **C180 (depths).** So are the depths in a superlink whose upstream head is the same. -/
theorem C180_depths (c : m.Consistent) (ps : PhysicalStep m geo inp) (rs : Resisting m) (bed : Bed m zI)
    (no : m.n_o = 0) (nw : m.n_w = 0) (np : m.n_p = 0)
    (lat : ∀ k, k < m.ix.NK → ∀ j, j ≤ m.ix.nk k → inp.Q_0Ik (m.ix.I_1k k + j) = 0)
    (sb : Submerged m s) (sb' : Submerged m s') (sd : Steady m geo inp s) (sd' : Steady m geo inp s')
    (fixed : ∀ i, i < m.M → m.bc i = true → s.H i = s'.H i) {k : ℕ} (hk : k < m.ix.NK) (hH : s.H (m.Ju k) = s'.H (m.Ju k))
    {j : ℕ} (hj : j ≤ m.ix.nk k) : s.h (m.ix.I_1k k + j) = s'.h (m.ix.I_1k k + j) := by
  have q := C180_flows c ps rs bed no nw np lat sb sb' sd sd' fixed hk
  have f := fall_sum (s := s) bed hk j hj
  have f' := fall_sum (s := s') bed hk j hj
  have e : ∀ i ∈ Finset.range j, surfaceFall m s k i = surfaceFall m s' k i := by
    intro i hi
    have hi := Finset.mem_range.mp hi
    rw [C172_surface ps c sd hk (lat k hk) (by omega), C172_surface ps c sd' hk (lat k hk) (by omega)]
    simp only [headLoss, q.2.2.1 i (by omega)]
  rw [Finset.sum_congr rfl e, f'] at f
  have hu := sd.up k hk
  have hu' := sd'.up k hk
  rw [if_pos (sb.up k hk), q.1, hH] at hu
  rw [if_pos (sb'.up k hk)] at hu'
  rw [hu, hu'] at f
  linarith

/-- The steadily flowing pipe with its lower head held: its ends are under water, and every steady state in which they are has
its flow and its heads. -/
example (s' : Hyd) (sb' : Submerged exSteadyModel s') (sd' : Steady exSteadyModel exSteadyGeo exSteadyInp s') :
    Submerged exSteadyModel exSteady ∧ s'.Qu 0 = 1 ∧ s'.H 0 - s'.H 1 = 0.4 := by
  have sb : Submerged exSteadyModel exSteady := by
    constructor <;> intro k _ <;> norm_num [exSteadyModel, exSteady, exModel]
  have h := C180_flows (zI := fun I => 2 - I / 10) exSteadyConsistent exSteadyPhysical
    ⟨fun _ _ => Or.inl rfl, fun _ _ h => by simp [exSteadyModel, exModel] at h⟩
    ⟨fun k _ j _ => by simp only [exSteadyModel, exModel]; push_cast; ring, fun k _ => by norm_num [exSteadyModel, exModel],
      fun k _ => by norm_num [exSteadyModel, exModel]⟩
    rfl rfl rfl (fun _ _ _ _ => rfl) sb sb' exSteadyOk sd' (fun i _ h => by simp [exSteadyModel, exModel] at h) (k := 0)
    (by norm_num [exSteadyModel, exModel])
  refine ⟨sb, h.1.symm, ?_⟩
  have := h.2.2.2
  norm_num [exSteadyModel, exModel, exSteady] at this
  linarith

end

end Pipedream.Step
