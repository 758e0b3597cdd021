import Verif.SteadyMonotoneProps
import Verif.GraphFlowLemmas

/-!
# C185: which networks have a steady flow
-/

namespace Pipedream.Step

open Pipedream.Sweep Pipedream.Link Pipedream.Superlink Pipedream.Control Pipedream.Network

variable {m : Model} {geo : Geo} {inp : Inputs} {zI : ℕ → ℝ}

noncomputable section

/-! ### Specification -/

/-- Every part of the network which is not joined to a fixed head loses as much as it receives: the inflows to any set of
free superjunctions which no superlink leaves add up to zero. -/
def PartsInBalance (m : Model) (Q_in : ℕ → ℝ) : Prop :=
  ∀ S : Finset ℕ, (∀ i ∈ S, i < m.M ∧ m.bc i = false) → (∀ k, k < m.ix.NK → (m.Ju k ∈ S ↔ m.Jd k ∈ S)) →
    ∑ i ∈ S, Q_in i = 0

/-- The inputs with the fixed heads `f`. -/
def Inputs.holding (inp : Inputs) (f : ℕ → ℝ) : Inputs := { inp with H_bc := some f }

/-! ### The loss of a superlink as a function of its flow -/

theorem lossAt_continuous (rs : Resisting m) {k j : ℕ} (hl : m.ix.i_1k k + j < m.N) :
    Continuous (lossAt m geo k j) := by
  unfold lossAt frictionLaw
  have h1 : Continuous fun q : ℝ => |q| ^ (0.85 : ℝ) :=
    continuous_abs.rpow_const fun _ => Or.inr (by norm_num)
  rcases rs.method _ hl with e | e
  · simp only [e, if_true]
    split_ifs <;> fun_prop
  · simp only [e, one_ne_zero, if_false, if_true]
    split_ifs <;> fun_prop

theorem linkLoss_continuous (c : m.Consistent) (rs : Resisting m) {k : ℕ} (hk : k < m.ix.NK) :
    Continuous (linkLoss m geo k) := by
  have lt := c.inN k hk
  unfold linkLoss
  have h1 : Continuous fun q : ℝ => ∑ j ∈ Finset.range (m.ix.nk k), lossAt m geo k j q :=
    continuous_finsetSum _ fun j hj => lossAt_continuous rs (by have := Finset.mem_range.mp hj; omega)
  fun_prop

theorem linkLoss_odd (k : ℕ) (q : ℝ) : linkLoss m geo k (-q) = -linkLoss m geo k q := by
  have h : ∀ j, lossAt m geo k j (-q) = -lossAt m geo k j q := fun j => by
    simp only [lossAt, frictionLaw, abs_neg]
    ring
  unfold linkLoss
  simp only [h, Finset.sum_neg_distrib, abs_neg]
  ring

theorem lossAt_linear (ps : PhysicalStep m geo inp) (rs : Resisting m) {k j : ℕ} (hl : m.ix.i_1k k + j < m.N) {q : ℝ}
    (hq : 1 ≤ q) : lossAt m geo k j 1 * q ≤ lossAt m geo k j q := by
  have hg := ps.g_pos
  have hA := ps.A_pos _ hl
  have hR := ps.R_pos _ hl
  have hn := ps.n_pos _ hl
  have hd := ps.dx_pos _ hl
  have h0 : 0 ≤ q := by linarith
  simp only [lossAt, mul_one]
  rw [div_mul_eq_mul_div]
  refine div_le_div_of_nonneg_right (mul_le_mul_of_nonneg_right (add_le_add ?_ ?_) h0) (by positivity)
  · unfold frictionLaw
    rcases rs.method _ hl with e | e
    · simp only [e, if_true, abs_of_nonneg h0, abs_one]
      gcongr
    · simp only [e, one_ne_zero, if_false, if_true, abs_of_nonneg h0, abs_one]
      gcongr
  · split_ifs with hc
    · have := rs.structures _ hl hc
      rw [abs_of_nonneg h0, abs_one]
      gcongr
    · exact le_rfl

theorem linkLoss_linear (c : m.Consistent) (ps : PhysicalStep m geo inp) (rs : Resisting m) {k : ℕ} (hk : k < m.ix.NK)
    {q : ℝ} (hq : 1 ≤ q) : linkLoss m geo k 1 * q ≤ linkLoss m geo k q := by
  have lt := c.inN k hk
  have Cu := ps.Cu k hk
  have Cd := ps.Cd k hk
  have hg := ps.g_pos
  have h0 : 0 ≤ q := by linarith
  have s1 : (∑ j ∈ Finset.range (m.ix.nk k), lossAt m geo k j 1) * q
      ≤ ∑ j ∈ Finset.range (m.ix.nk k), lossAt m geo k j q := by
    rw [Finset.sum_mul]
    exact Finset.sum_le_sum fun j hj => lossAt_linear ps rs (by have := Finset.mem_range.mp hj; omega) hq
  have e : ∀ C A q : ℝ, |q| * C / (2 * m.g * A ^ 2) * q = C / (2 * m.g * A ^ 2) * (|q| * q) := by intros; ring
  have s2 : ∀ C A : ℝ, 0 ≤ C → C / (2 * m.g * A ^ 2) * (|1| * 1) * q ≤ C / (2 * m.g * A ^ 2) * (|q| * q) := by
    intro C A hC
    rw [mul_assoc, abs_one, abs_of_nonneg h0]
    exact mul_le_mul_of_nonneg_left (by nlinarith) (by positivity)
  unfold linkLoss
  simp only [e]
  have := s2 _ (geo.A_u k) Cu
  have := s2 _ (geo.A_d k) Cd
  linarith

theorem linkLoss_zero (k : ℕ) : linkLoss m geo k 0 = 0 := by
  have := linkLoss_odd (m := m) (geo := geo) k 0
  rw [neg_zero] at this
  linarith

theorem linkLoss_grows (c : m.Consistent) (ps : PhysicalStep m geo inp) (rs : Resisting m) {k : ℕ} (hk : k < m.ix.NK) :
    ∃ a, 0 < a ∧ (∀ q, 0 ≤ q → a * (q - 1) ≤ linkLoss m geo k q) ∧ ∀ q, q ≤ 0 → linkLoss m geo k q ≤ a * (q + 1) := by
  have h0 := linkLoss_zero (m := m) (geo := geo) k
  have h1 : 0 < linkLoss m geo k 1 := by
    have := linkLoss_strict c ps rs hk (zero_lt_one (α := ℝ))
    rwa [h0] at this
  have key : ∀ q, 0 ≤ q → linkLoss m geo k 1 * (q - 1) ≤ linkLoss m geo k q := by
    intro q hq
    rcases le_total q 1 with h | h
    · have := linkLoss_mono c ps rs hk hq
      rw [h0] at this
      have : linkLoss m geo k 1 * (q - 1) ≤ 0 := mul_nonpos_of_nonneg_of_nonpos h1.le (by linarith)
      linarith
    · have := linkLoss_linear c ps rs hk h
      linarith
  refine ⟨_, h1, key, fun q hq => ?_⟩
  have := key (-q) (by linarith)
  rw [linkLoss_odd] at this
  linarith

/-! ### Which superlink an index belongs to -/

open Classical in
/-- The superlink of a link. -/
def linkOwner (m : Model) (i : ℕ) : ℕ :=
  if h : ∃ k, k < m.ix.NK ∧ ∃ j, j < m.ix.nk k ∧ m.ix.i_1k k + j = i then h.choose else 0

theorem linkOwner_eq (c : m.Consistent) {k j : ℕ} (hk : k < m.ix.NK) (hj : j < m.ix.nk k) :
    linkOwner m (m.ix.i_1k k + j) = k := by
  have h : ∃ k', k' < m.ix.NK ∧ ∃ j', j' < m.ix.nk k' ∧ m.ix.i_1k k' + j' = m.ix.i_1k k + j := ⟨k, hk, j, hj, rfl⟩
  unfold linkOwner
  rw [dif_pos h]
  obtain ⟨a, j', b, e⟩ := h.choose_spec
  by_contra ne
  exact c.layout.links_disjoint _ _ a hk ne j' j b hj e

open Classical in
/-- The superlink of a junction. -/
def junctionOwner (m : Model) (I : ℕ) : ℕ :=
  if h : ∃ k, k < m.ix.NK ∧ ∃ j, j ≤ m.ix.nk k ∧ m.ix.I_1k k + j = I then h.choose else 0

theorem junctionOwner_eq (c : m.Consistent) {k j : ℕ} (hk : k < m.ix.NK) (hj : j ≤ m.ix.nk k) :
    junctionOwner m (m.ix.I_1k k + j) = k := by
  have h : ∃ k', k' < m.ix.NK ∧ ∃ j', j' ≤ m.ix.nk k' ∧ m.ix.I_1k k' + j' = m.ix.I_1k k + j := ⟨k, hk, j, hj, rfl⟩
  unfold junctionOwner
  rw [dif_pos h]
  obtain ⟨a, j', b, e⟩ := h.choose_spec
  by_contra ne
  exact c.layout.junctions_disjoint _ _ a hk ne j' j b hj e

/-! ### The state that belongs to heads and flows -/

/-- The state with heads `H` and flow `q k` through superlink `k`: the energy line starts below the upstream head by the entrance
loss, and falls by the losses of the links. -/
def flowState (m : Model) (geo : Geo) (zI H q : ℕ → ℝ) : Hyd where
  H := H
  Q := fun i => q (linkOwner m i)
  Qu := q
  Qd := q
  h := fun I => H (m.Ju (junctionOwner m I))
    - |q (junctionOwner m I)| * m.C_uk (junctionOwner m I)
      / (2 * m.g * geo.A_u (junctionOwner m I) ^ 2) * q (junctionOwner m I)
    - ∑ j ∈ Finset.range (I - m.ix.I_1k (junctionOwner m I)), lossAt m geo (junctionOwner m I) j (q (junctionOwner m I)) - zI I
  Qo := fun _ => 0
  Qw := fun _ => 0
  Qp := fun _ => 0

theorem flowState_steady (c : m.Consistent) (ps : PhysicalStep m geo inp) (bed : Bed m zI)
    (no : m.n_o = 0) (nw : m.n_w = 0) (np : m.n_p = 0)
    (lat : ∀ k, k < m.ix.NK → ∀ j, j ≤ m.ix.nk k → inp.Q_0Ik (m.ix.I_1k k + j) = 0) {H q : ℕ → ℝ}
    (fixed : ∀ i, i < m.M → m.bc i = true → ∀ f, inp.H_bc = some f → f i = H i)
    (bal : ∀ i, i < m.M → m.bc i = false → inp.Q_in i + netInto m.ix.NK m.Ju m.Jd q q i = 0)
    (loss : ∀ k, k < m.ix.NK → H (m.Ju k) - H (m.Jd k) = linkLoss m geo k (q k))
    (up : ∀ k, k < m.ix.NK → m.z_uk k ≤ H (m.Ju k)) (down : ∀ k, k < m.ix.NK → m.z_dk k ≤ H (m.Jd k)) :
    Steady m geo inp (flowState m geo zI H q) := by
  have hh : ∀ k, k < m.ix.NK → ∀ j, j ≤ m.ix.nk k → (flowState m geo zI H q).h (m.ix.I_1k k + j)
      = H (m.Ju k) - |q k| * m.C_uk k / (2 * m.g * geo.A_u k ^ 2) * q k
        - ∑ i ∈ Finset.range j, lossAt m geo k i (q k) - zI (m.ix.I_1k k + j) := by
    intro k hk j hj
    simp only [flowState, junctionOwner_eq c hk hj, Nat.add_sub_cancel_left]
  have hQ : ∀ k, k < m.ix.NK → ∀ j, j < m.ix.nk k → (flowState m geo zI H q).Q (m.ix.i_1k k + j) = q k := by
    intro k hk j hj
    simp only [flowState, linkOwner_eq c hk hj]
  have harr : ∀ k, k < m.ix.NK → ∀ j, j ≤ m.ix.nk k → arriving m (flowState m geo zI H q) k j = q k := by
    intro k hk j hj
    unfold arriving
    split_ifs with h
    · rfl
    · have := hQ k hk (j - 1) (by omega)
      rwa [show m.ix.i_1k k + (j - 1) = m.ix.i_1k k + j - 1 by omega] at this
  have hlea : ∀ k, k < m.ix.NK → ∀ j, j ≤ m.ix.nk k → leaving m (flowState m geo zI H q) k j = q k := by
    intro k hk j hj
    unfold leaving
    split_ifs with h
    · rfl
    · exact hQ k hk j (by omega)
  constructor
  · exact fixed
  · intro i hi hb
    rw [no, nw, np]
    simp only [netInto, Finset.range_zero, Finset.sum_empty, add_zero]
    exact bal i hi hb
  · intro k hk j hj
    have hl := c.inN k hk
    have hA := ps.A_pos (m.ix.i_1k k + j) (by omega)
    have hg := ps.g_pos
    rw [harr k hk j hj.le, hlea k hk (j + 1) hj, hQ k hk j hj, sub_self, mul_zero, mul_zero, add_zero, add_zero,
      bed.slope k hk j hj, hh k hk j hj.le, add_assoc (m.ix.I_1k k) j 1, hh k hk (j + 1) hj, Finset.sum_range_succ]
    have e : lossAt m geo k j (q k) * (m.g * geo.A (m.ix.i_1k k + j))
        = (frictionLaw m.g (m.method (m.ix.i_1k k + j)) (q k) (m.dx (m.ix.i_1k k + j)) (geo.A (m.ix.i_1k k + j))
            (geo.R (m.ix.i_1k k + j)) (m.n (m.ix.i_1k k + j))
          + (if m.ctrl (m.ix.i_1k k + j) then m.C (m.ix.i_1k k + j) * geo.A (m.ix.i_1k k + j) * |q k|
              / m.A_c (m.ix.i_1k k + j) ^ 2 else 0)) * q k := by
      simp only [lossAt]
      rw [div_mul_cancel₀ _ (by positivity)]
    have e2 : ∀ (b : Bool) (x y : ℝ), (if b then x * y else 0) = (if b then x else 0) * y := by
      intros; split_ifs <;> ring
    rw [e2, ← add_mul, ← e]
    ring
  · intro k hk j hj
    rw [harr k hk j hj, hlea k hk j hj, lat k hk j hj, add_zero]
  · intro k hk
    have := hh k hk 0 (Nat.zero_le _)
    rw [add_zero, Finset.range_zero, Finset.sum_empty, bed.up k hk] at this
    rw [this, if_pos (show m.z_uk k ≤ (flowState m geo zI H q).H (m.Ju k) from up k hk)]
    simp only [flowState]
    ring
  · intro k hk
    have := hh k hk (m.ix.nk k) le_rfl
    rw [bed.down k hk] at this
    rw [this, if_pos (show m.z_dk k ≤ (flowState m geo zI H q).H (m.Jd k) from down k hk)]
    have l := loss k hk
    unfold linkLoss at l
    simp only [flowState]
    linarith
  · intro o ho; omega
  · intro o ho; omega
  · intro o ho; omega

/-! ### Existence -/

theorem sum_range_fin (f : ℕ → ℝ) (n : ℕ) : ∑ i ∈ Finset.range n, f i = ∑ i : Fin n, f i := (Fin.sum_univ_eq_sum_range f n).symm

/-- Heads and flows of a network whose parts are in balance. -/
theorem heads_and_flows (c : m.Consistent) (ps : PhysicalStep m geo inp) (rs : Resisting m)
    (parts : PartsInBalance m inp.Q_in) (f : ℕ → ℝ) :
    ∃ H q : ℕ → ℝ, (∀ i, i < m.M → m.bc i = true → H i = f i) ∧
      (∀ k, k < m.ix.NK → H (m.Ju k) - H (m.Jd k) = linkLoss m geo k (q k)) ∧
      ∀ i, i < m.M → m.bc i = false → inp.Q_in i + netInto m.ix.NK m.Ju m.Jd q q i = 0 := by
  let Ju : Fin m.ix.NK → Fin m.M := fun k => ⟨m.Ju k, c.Ju k k.2⟩
  let Jd : Fin m.ix.NK → Fin m.M := fun k => ⟨m.Jd k, c.Jd k k.2⟩
  have hp : Graph.PartsBalance Ju Jd (fun i => m.bc i) (fun i => inp.Q_in i) := by
    intro S hS hb
    have := parts (S.map Fin.valEmbedding) ?_ ?_
    · rwa [Finset.sum_map] at this
    · intro i hi
      obtain ⟨a, ha, rfl⟩ := Finset.mem_map.mp hi
      exact ⟨a.2, hb a ha⟩
    · intro k hk
      have := hS ⟨k, hk⟩
      have e : ∀ (x : ℕ) (hx : x < m.M), x ∈ S.map Fin.valEmbedding ↔ (⟨x, hx⟩ : Fin m.M) ∈ S := by
        intro x hx
        rw [Finset.mem_map]
        constructor
        · rintro ⟨a, ha, rfl⟩; exact ha
        · intro h; exact ⟨_, h, rfl⟩
      rw [e _ (c.Ju k hk), e _ (c.Jd k hk)]
      exact this
  obtain ⟨H, x, h1, h2, h3⟩ := Graph.exists_flow (L := fun k => linkLoss m geo k) (f := fun i => f i)
    (fun k => linkLoss_continuous c rs k.2) (fun k => linkLoss_grows c ps rs k.2) hp
  refine ⟨fun i => if h : i < m.M then H ⟨i, h⟩ else 0, fun k => if h : k < m.ix.NK then x ⟨k, h⟩ else 0, ?_, ?_, ?_⟩
  · intro i hi hb
    simp only [dif_pos hi]
    exact h1 ⟨i, hi⟩ hb
  · intro k hk
    simp only [dif_pos hk, dif_pos (c.Ju k hk), dif_pos (c.Jd k hk)]
    exact h2 ⟨k, hk⟩
  · intro i hi hb
    have := h3 ⟨i, hi⟩ hb
    rw [← this]
    congr 1
    unfold netInto Graph.net
    rw [sum_range_fin]
    refine Finset.sum_congr rfl fun k _ => ?_
    simp only [dif_pos k.2, Ju, Jd, Fin.mk.injEq]

/-- **C185 (existence).** Take a network without controls and lateral inflow, with given sections, whose parts are in balance —
for instance one in which every superjunction is joined to a fixed head. However the fixed heads differ, once they are high
enough the network has a steady state with all pipe ends under water; the flows do not depend on how high, and are those of
every such state. -/
theorem C185_exists (c : m.Consistent) (ps : PhysicalStep m geo inp) (rs : Resisting m) (bed : Bed m zI)
    (no : m.n_o = 0) (nw : m.n_w = 0) (np : m.n_p = 0)
    (lat : ∀ k, k < m.ix.NK → ∀ j, j ≤ m.ix.nk k → inp.Q_0Ik (m.ix.I_1k k + j) = 0)
    (parts : PartsInBalance m inp.Q_in) (f : ℕ → ℝ) :
    ∃ (T0 : ℝ) (q : ℕ → ℝ), ∀ T, T0 ≤ T →
      (∃ s, Steady m geo (inp.holding fun i => f i + T) s ∧ Submerged m s ∧ ∀ k, k < m.ix.NK → s.Qu k = q k) ∧
      ∀ s, Steady m geo (inp.holding fun i => f i + T) s → Submerged m s → ∀ k, k < m.ix.NK → s.Qu k = q k := by
  obtain ⟨H, q, h1, h2, h3⟩ := heads_and_flows c ps rs parts f
  let T0 : ℝ := ∑ k ∈ Finset.range m.ix.NK, (|m.z_uk k - H (m.Ju k)| + |m.z_dk k - H (m.Jd k)|)
  have hT0 : ∀ k, k < m.ix.NK → m.z_uk k - H (m.Ju k) ≤ T0 ∧ m.z_dk k - H (m.Jd k) ≤ T0 := by
    intro k hk
    have := Finset.single_le_sum (f := fun k => |m.z_uk k - H (m.Ju k)| + |m.z_dk k - H (m.Jd k)|)
      (fun k _ => by positivity) (Finset.mem_range.mpr hk)
    change _ ≤ T0 at this
    have a := le_abs_self (m.z_uk k - H (m.Ju k))
    have b := le_abs_self (m.z_dk k - H (m.Jd k))
    have a' := abs_nonneg (m.z_uk k - H (m.Ju k))
    have b' := abs_nonneg (m.z_dk k - H (m.Jd k))
    constructor <;> linarith
  refine ⟨T0, q, fun T hT => ?_⟩
  have ps' : PhysicalStep m geo (inp.holding fun i => f i + T) :=
    { ps with dt_pos := ps.dt_pos, u_p := ps.u_p }
  have sb : Submerged m (flowState m geo zI (fun i => H i + T) q) :=
    ⟨fun k hk => by show m.z_uk k ≤ H (m.Ju k) + T; linarith [(hT0 k hk).1],
      fun k hk => by show m.z_dk k ≤ H (m.Jd k) + T; linarith [(hT0 k hk).2]⟩
  have sd : Steady m geo (inp.holding fun i => f i + T) (flowState m geo zI (fun i => H i + T) q) := by
    refine flowState_steady c ps' bed no nw np lat ?_ h3 ?_ sb.up sb.down
    · rintro i hi hb g ⟨⟩
      show f i + T = H i + T
      rw [h1 i hi hb]
    · intro k hk
      rw [← h2 k hk]
      ring
  refine ⟨⟨_, sd, sb, fun k hk => rfl⟩, fun s hs hsub k hk => ?_⟩
  exact (C180_flows c ps' rs bed no nw np lat hsub sb hs sd (fun i hi hb => by
    rw [← hs.fixed i hi hb _ rfl, ← sd.fixed i hi hb _ rfl]) hk).1

/-- **C185 (necessity).** A steady network, its pipe ends under water or not, is in balance in every part which is not joined
to a fixed head. -/
theorem C185_balanced (c : m.Consistent)
    (no : m.n_o = 0) (nw : m.n_w = 0) (np : m.n_p = 0)
    (lat : ∀ k, k < m.ix.NK → ∀ j, j ≤ m.ix.nk k → inp.Q_0Ik (m.ix.I_1k k + j) = 0) {s : Hyd}
    (sd : Steady m geo inp s) : PartsInBalance m inp.Q_in := by
  classical
  intro S hS hk
  have hthrough : ∀ k, k < m.ix.NK → s.Qd k = s.Qu k := by
    intro k hk
    obtain ⟨-, l⟩ := steady_through sd hk (lat k hk)
    have := l (m.ix.nk k) le_rfl
    unfold leaving at this
    rwa [if_pos rfl] at this
  have hbal : ∀ i ∈ S, inp.Q_in i = -netInto m.ix.NK m.Ju m.Jd s.Qu s.Qd i := by
    intro i hi
    have := sd.balance i (hS i hi).1 (hS i hi).2
    rw [no, nw, np] at this
    simp only [netInto, Finset.range_zero, Finset.sum_empty, add_zero] at this ⊢
    linarith
  rw [Finset.sum_congr rfl hbal, Finset.sum_neg_distrib, neg_eq_zero]
  have w := sum_netInto (M := m.M) c.Ju c.Jd s.Qu s.Qd (fun i => if i ∈ S then 1 else 0)
  have e : ∑ i ∈ Finset.range m.M, (if i ∈ S then (1 : ℝ) else 0) * netInto m.ix.NK m.Ju m.Jd s.Qu s.Qd i
      = ∑ i ∈ S, netInto m.ix.NK m.Ju m.Jd s.Qu s.Qd i := by
    simp only [ite_mul, one_mul, zero_mul]
    rw [← Finset.sum_filter]
    refine Finset.sum_congr ?_ fun _ _ => rfl
    ext i
    simp only [Finset.mem_filter, Finset.mem_range]
    exact ⟨fun h => h.2, fun h => ⟨(hS i h).1, h⟩⟩
  rw [← e, w]
  refine Finset.sum_eq_zero fun k hk' => ?_
  have hk' := Finset.mem_range.mp hk'
  rw [hthrough k hk']
  simp only [hk k hk', sub_self]

/-- A network in which every superjunction is joined, directly or through others, to a fixed head is in balance whatever its
inflows. -/
theorem partsInBalance_of_joined (hj : ∀ i, i < m.M → ∃ b, b < m.M ∧ m.bc b = true ∧ Relation.ReflTransGen (Joins m) i b)
    (Q_in : ℕ → ℝ) : PartsInBalance m Q_in := by
  intro S hS hk
  have hempty : S = ∅ := by
    rw [Finset.eq_empty_iff_forall_notMem]
    intro i hi
    obtain ⟨b, hb, hbc, path⟩ := hj i (hS i hi).1
    have : b ∈ S := by
      clear hbc hb
      induction path with
      | refl => exact hi
      | tail _ h ih =>
        obtain ⟨k, hk', ⟨rfl, rfl⟩ | ⟨rfl, rfl⟩⟩ := h
        · exact (hk k hk').mp ih
        · exact (hk k hk').mpr ih
    rw [(hS b this).2] at hbc
    cases hbc
  rw [hempty, Finset.sum_empty]

/-- **C185.** A network without controls and lateral inflow, with given sections, has a steady state with its pipe ends under
water, for fixed heads which differ as required and are high enough, if and only if every part not joined to a fixed head is
in balance. -/
theorem C185_iff (c : m.Consistent) (ps : PhysicalStep m geo inp) (rs : Resisting m) (bed : Bed m zI)
    (no : m.n_o = 0) (nw : m.n_w = 0) (np : m.n_p = 0)
    (lat : ∀ k, k < m.ix.NK → ∀ j, j ≤ m.ix.nk k → inp.Q_0Ik (m.ix.I_1k k + j) = 0) (f : ℕ → ℝ) :
    (∃ T s, Steady m geo (inp.holding fun i => f i + T) s ∧ Submerged m s) ↔ PartsInBalance m inp.Q_in := by
  constructor
  · rintro ⟨T, s, sd, -⟩
    exact C185_balanced (inp := inp.holding fun i => f i + T) c no nw np lat sd
  · intro parts
    obtain ⟨T0, q, h⟩ := C185_exists c ps rs bed no nw np lat parts f
    obtain ⟨⟨s, sd, sb, -⟩, -⟩ := h T0 le_rfl
    exact ⟨T0, s, sd, sb⟩

/-! ### Concrete cases -/

/-- The example pipe with its lower head held carries a steady flow for any inflows; without a fixed head it does so if and only
if what enters at one end leaves at the other. -/
example (Q : ℕ → ℝ) : PartsInBalance heldSteady Q ∧ (PartsInBalance exSteadyModel Q ↔ Q 0 + Q 1 = 0) := by
  constructor
  · refine partsInBalance_of_joined (fun i hi => ⟨1, by norm_num [heldSteady, exSteadyModel, exModel], rfl, ?_⟩) Q
    have hi : i < 2 := hi
    interval_cases i
    · exact Relation.ReflTransGen.single ⟨0, by norm_num [heldSteady, exSteadyModel, exModel], Or.inl ⟨rfl, rfl⟩⟩
    · exact Relation.ReflTransGen.refl
  · constructor
    · intro h
      have := h (Finset.range 2) (fun i hi => ⟨Finset.mem_range.mp hi, by simp [exSteadyModel, exModel]⟩) (fun k hk => by
        have hk : k < 1 := hk
        interval_cases k
        simp [exSteadyModel, exModel])
      simpa [Finset.sum_range_succ] using this
    · intro h S hS hk
      have h01 : 0 ∈ S ↔ 1 ∈ S := hk 0 (by norm_num [exSteadyModel, exModel])
      have hsub : S ⊆ Finset.range 2 := fun i hi => Finset.mem_range.mpr (hS i hi).1
      by_cases h0 : 0 ∈ S
      · have hall : S = Finset.range 2 := by
          refine Finset.Subset.antisymm hsub fun i hi => ?_
          have hi := Finset.mem_range.mp hi
          interval_cases i
          · exact h0
          · exact h01.mp h0
        rw [hall]
        simpa [Finset.sum_range_succ] using h
      · have hnone : S = ∅ := by
          rw [Finset.eq_empty_iff_forall_notMem]
          intro i hi
          have hi' := Finset.mem_range.mp (hsub hi)
          interval_cases i
          · exact h0 hi
          · exact h0 (h01.mpr hi)
        rw [hnone, Finset.sum_empty]

/-- It carries exactly what enters at its upper end. -/
example (Q : ℕ → ℝ) : ∃ T0 : ℝ, ∀ T, T0 ≤ T →
    ∃ s, Steady heldSteady exSteadyGeo { exSteadyInp with Q_in := Q, H_bc := some fun _ => T } s ∧ s.Qu 0 = Q 0 := by
  have hc := heldComparable
  have parts : PartsInBalance heldSteady Q := partsInBalance_of_joined (fun i hi =>
    ⟨1, by norm_num [heldSteady, exSteadyModel, exModel], rfl, by
      have hi : i < 2 := hi
      interval_cases i
      · exact Relation.ReflTransGen.single ⟨0, by norm_num [heldSteady, exSteadyModel, exModel], Or.inl ⟨rfl, rfl⟩⟩
      · exact Relation.ReflTransGen.refl⟩) Q
  have ps : PhysicalStep heldSteady exSteadyGeo { exSteadyInp with Q_in := Q } :=
    { hc.physical' with dt_pos := hc.physical'.dt_pos, u_p := hc.physical'.u_p }
  obtain ⟨T0, q, h⟩ := C185_exists hc.consistent ps hc.resisting hc.bed hc.n_o hc.n_w hc.n_p hc.lat' parts (fun _ => 0)
  refine ⟨T0, fun T hT => ?_⟩
  obtain ⟨⟨s, sd, -, -⟩, -⟩ := h T hT
  have e : Inputs.holding { exSteadyInp with Q_in := Q } (fun _ => 0 + T)
      = { exSteadyInp with Q_in := Q, H_bc := some fun _ => T } := by simp [Inputs.holding]
  rw [e] at sd
  refine ⟨s, sd, ?_⟩
  have hb := sd.balance 0 (by norm_num [heldSteady, exSteadyModel, exModel]) rfl
  have hN : heldSteady.ix.NK = 1 := rfl
  have ho : heldSteady.n_o = 0 := rfl
  have hw : heldSteady.n_w = 0 := rfl
  have hp : heldSteady.n_p = 0 := rfl
  have hu : heldSteady.Ju 0 = 0 := rfl
  have hd : heldSteady.Jd 0 = 1 := rfl
  rw [hN, ho, hw, hp] at hb
  simp only [netInto, Finset.range_one, Finset.sum_singleton, Finset.range_zero, Finset.sum_empty, hu, hd, one_ne_zero,
    if_true, if_false, add_zero] at hb
  linarith

end

end Pipedream.Step
