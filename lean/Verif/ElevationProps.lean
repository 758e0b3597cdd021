import Verif.SteadyControlProps
import Verif.SteadyExistsProps
import Verif.TopologyModel

/-!
# C187: elevations read from and assigned to a model
-/

namespace Pipedream.Topology

variable {K : Type*} [Field K] [LinearOrder K] [IsStrictOrderedRing K]

/-- **C187 (what `z_inv_uk` is).** The documentation calls `z_inv_uk` the offset of the superlink above the superjunction. What a
model reports is the offset given exactly if the superjunction's invert is at zero. -/
theorem C187_offset_iff (z : ℕ → K) (sj0 sj1 : ℕ) (inOff outOff : K) :
    (zInvU z sj0 sj1 inOff outOff = inOff ↔ z (orient z sj0 sj1 inOff outOff).1 = 0) ∧
    (zInvD z sj0 sj1 inOff outOff = outOff ↔ z (orient z sj0 sj1 inOff outOff).2 = 0) := by
  simp only [zInvU, zInvD, add_eq_right, and_self]

/-- **C187 (assigning `z_inv_j`).** A model built with other superjunction inverts `z'` (offsets and directions being the same)
has other pipe ends than one whose `z_inv_j` is assigned `z'`, which keeps the pipe ends it had, unless the inverts at the ends
are the same. -/
theorem C187_inverts_iff (z z' : ℕ → K) (sj0 sj1 : ℕ) (inOff outOff : K)
    (dir : orient z' sj0 sj1 inOff outOff = orient z sj0 sj1 inOff outOff) :
    (zInvU z' sj0 sj1 inOff outOff = zInvU z sj0 sj1 inOff outOff ∧ zInvD z' sj0 sj1 inOff outOff = zInvD z sj0 sj1 inOff outOff) ↔
      z' (orient z sj0 sj1 inOff outOff).1 = z (orient z sj0 sj1 inOff outOff).1 ∧
      z' (orient z sj0 sj1 inOff outOff).2 = z (orient z sj0 sj1 inOff outOff).2 := by
  simp only [zInvU, zInvD, dir, add_left_inj]

/-- Inverts at 10 and 9, offsets 0.5 and 0: the upstream end is reported at 10.5. -/
example : zInvU (fun j => if j = 0 then (10 : ℚ) else 9) 0 1 0.5 0 = 10.5 := by
  norm_num [zInvU, orient]

end Pipedream.Topology

namespace Pipedream.Step

open Pipedream.Sweep Pipedream.Link Pipedream.Superlink Pipedream.Control Pipedream.Network

variable {m : Model} {geo : Geo} {inp : Inputs} {s : Hyd} {zI : ℕ → ℝ} {k : ℕ}

noncomputable section

/-- What the elevations of the ends of superlink `k` differ more than its links fall. -/
def bedGap (m : Model) (k : ℕ) : ℝ :=
  m.z_uk k - m.z_dk k - ∑ j ∈ Finset.range (m.ix.nk k), m.S_o (m.ix.i_1k k + j) * m.dx (m.ix.i_1k k + j)

/-- `model.z_inv_uk = v` (superlink.py 907–909). -/
def Model.assignU (m : Model) (v : ℕ → ℝ) : Model := { m with z_uk := v }

/-- `model.z_inv_dk = v` (superlink.py 915–917). -/
def Model.assignD (m : Model) (v : ℕ → ℝ) : Model := { m with z_dk := v }

/-! ### Lemmas -/

theorem links_fall (bed : Bed m zI) (hk : k < m.ix.NK) : ∀ n, n ≤ m.ix.nk k →
    ∑ j ∈ Finset.range n, m.S_o (m.ix.i_1k k + j) * m.dx (m.ix.i_1k k + j) = zI (m.ix.I_1k k) - zI (m.ix.I_1k k + n) := by
  intro n
  induction n with
  | zero => intro _; simp
  | succ n ih => intro hn; rw [Finset.sum_range_succ, ih (by omega), bed.slope k hk n (by omega)]; ring

theorem bedGap_bed (bed : Bed m zI) (hk : k < m.ix.NK) : bedGap m k = 0 := by
  rw [bedGap, links_fall bed hk _ le_rfl, bed.up k hk, bed.down k hk]; ring

theorem surface_sum (n : ℕ) : ∑ j ∈ Finset.range n, surfaceFall m s k j
    = ∑ j ∈ Finset.range n, m.S_o (m.ix.i_1k k + j) * m.dx (m.ix.i_1k k + j) + s.h (m.ix.I_1k k) - s.h (m.ix.I_1k k + n) := by
  induction n with
  | zero => simp
  | succ n ih => rw [Finset.sum_range_succ, ih, Finset.sum_range_succ, surfaceFall, ← Nat.add_assoc]; ring

/-! ### C187 -/

/-- **C187 (any elevations).** In a steady state the heads at the ends of a superlink under water differ by what it loses and by
the gap between its ends and its links. -/
theorem C187_heads (c : m.Consistent) (ps : PhysicalStep m geo inp) (sb : Submerged m s) (sd : Steady m geo inp s)
    (hk : k < m.ix.NK) (h0 : ∀ j, j ≤ m.ix.nk k → inp.Q_0Ik (m.ix.I_1k k + j) = 0) :
    s.H (m.Ju k) - s.H (m.Jd k) = bedGap m k + linkLoss m geo k (s.Qu k) := by
  obtain ⟨a, l⟩ := steady_through sd hk h0
  have n1 := c.layout.pos k hk
  have hQ : ∀ j, j < m.ix.nk k → s.Q (m.ix.i_1k k + j) = s.Qu k := by
    intro j hj
    have := l j hj.le
    unfold leaving at this
    rwa [if_neg (by omega)] at this
  have hd : s.Qd k = s.Qu k := by
    have := l (m.ix.nk k) le_rfl
    unfold leaving at this
    rwa [if_pos rfl] at this
  have f := surface_sum (m := m) (s := s) (k := k) (m.ix.nk k)
  rw [Finset.sum_congr rfl fun j hj => C172_surface ps c sd hk h0 (Finset.mem_range.mp hj)] at f
  have e : ∀ j ∈ Finset.range (m.ix.nk k), headLoss m geo s k j = lossAt m geo k j (s.Qu k) := by
    intro j hj
    simp only [headLoss, lossAt, hQ j (Finset.mem_range.mp hj)]
  rw [Finset.sum_congr rfl e] at f
  have hu := sd.up k hk
  have hdn := sd.down k hk
  rw [if_pos (sb.up k hk)] at hu
  rw [if_pos (sb.down k hk), hd] at hdn
  unfold linkLoss bedGap
  linarith

/-- **C187 (level water at rest).** Between equal heads a superlink under water is steadily at rest exactly if its ends and its
links have the same fall; otherwise water flows for ever. -/
theorem C187_rest_iff (c : m.Consistent) (ps : PhysicalStep m geo inp) (rs : Resisting m) (sb : Submerged m s)
    (sd : Steady m geo inp s) (hk : k < m.ix.NK) (h0 : ∀ j, j ≤ m.ix.nk k → inp.Q_0Ik (m.ix.I_1k k + j) = 0)
    (level : s.H (m.Ju k) = s.H (m.Jd k)) :
    (s.Qu k = 0 ↔ bedGap m k = 0) ∧ (0 < s.Qu k ↔ bedGap m k < 0) := by
  have h := C187_heads c ps sb sd hk h0
  have z := linkLoss_zero (m := m) (geo := geo) k
  have st := fun x y => linkLoss_strict (a := x) (b := y) c ps rs hk
  rw [level, sub_self] at h
  rcases lt_trichotomy (s.Qu k) 0 with q | q | q
  · have := st _ _ q
    rw [z] at this
    exact ⟨⟨fun e => absurd e q.ne, fun e => by linarith⟩, ⟨fun e => by linarith, fun e => by linarith⟩⟩
  · rw [q, z] at h
    rw [q]
    exact ⟨⟨fun _ => by linarith, fun _ => rfl⟩, ⟨fun e => absurd e (lt_irrefl _), fun e => by linarith⟩⟩
  · have := st _ _ q
    rw [z] at this
    exact ⟨⟨fun e => absurd e q.ne', fun e => by linarith⟩, ⟨fun _ => by linarith, fun _ => q⟩⟩

/-- **C187 (assigning `z_inv_uk`, `z_inv_dk`).** The slopes stay as they were: an assigned elevation opens a gap of the whole
change. -/
theorem C187_assign (bed : Bed m zI) (v : ℕ → ℝ) (hk : k < m.ix.NK) :
    bedGap (m.assignU v) k = v k - m.z_uk k ∧ bedGap (m.assignD v) k = m.z_dk k - v k := by
  have h := bedGap_bed bed hk
  unfold bedGap at h ⊢
  constructor
  · change m.z_uk k - m.z_dk k - ∑ j ∈ Finset.range (m.ix.nk k), m.S_o (m.ix.i_1k k + j) * m.dx (m.ix.i_1k k + j) = 0 at h
    change v k - m.z_dk k - ∑ j ∈ Finset.range (m.ix.nk k), m.S_o (m.ix.i_1k k + j) * m.dx (m.ix.i_1k k + j) = _
    linarith
  · change m.z_uk k - v k - ∑ j ∈ Finset.range (m.ix.nk k), m.S_o (m.ix.i_1k k + j) * m.dx (m.ix.i_1k k + j) = _
    linarith

/-- **C187 (what a lowered end does).** After `z_inv_uk` has been assigned, water stands at the same level at both ends of a
superlink under water, and rests, only if the assigned elevation is the old one. -/
theorem C187_assigned_level_iff (bed : Bed m zI) {v : ℕ → ℝ} (c : (m.assignU v).Consistent)
    (ps : PhysicalStep (m.assignU v) geo inp) (rs : Resisting (m.assignU v)) (sb : Submerged (m.assignU v) s)
    (sd : Steady (m.assignU v) geo inp s) (hk : k < m.ix.NK) (h0 : ∀ j, j ≤ m.ix.nk k → inp.Q_0Ik (m.ix.I_1k k + j) = 0)
    (level : s.H (m.Ju k) = s.H (m.Jd k)) : (s.Qu k = 0 ↔ v k = m.z_uk k) ∧ (0 < s.Qu k ↔ v k < m.z_uk k) := by
  have h := C187_rest_iff c ps rs sb sd hk h0 level
  rw [(C187_assign bed v hk).1] at h
  exact ⟨h.1.trans sub_eq_zero, h.2.trans sub_neg⟩

/-! ### A case meeting the hypotheses -/

/-- The steadily flowing pipe of C100 whose upper end, at 2, is assigned 1.6. -/
def lowered : Model := exSteadyModel.assignU fun _ => 1.6

/-- One unit flows through it between equal heads. -/
def levelFlow : Hyd := { exSteady with H := fun _ => 2.7 }

theorem lowered_steady : Steady lowered exSteadyGeo exSteadyInp levelFlow := by
  have h := exSteadyOk
  refine ⟨fun i _ _ f hf => by simp [exSteadyInp, exInp] at hf, h.balance, h.momentum, h.continuity, fun k hk => ?_, fun k hk => ?_,
    ?_, ?_, ?_⟩
  · norm_num [lowered, Model.assignU, levelFlow, exSteadyModel, exModel, exSteady, exSteadyGeo, exGeo]
  · norm_num [lowered, Model.assignU, levelFlow, exSteadyModel, exModel, exSteady, exSteadyGeo, exGeo]
  · intro o ho; simp [lowered, Model.assignU, exSteadyModel] at ho
  · intro o ho; simp [lowered, Model.assignU, exSteadyModel] at ho
  · intro o ho; simp [lowered, Model.assignU, exSteadyModel] at ho

example : 0 < levelFlow.Qu 0 := by
  have C := exSteadyConsistent
  have B : Bed exSteadyModel fun I => 2 - I / 10 :=
    ⟨fun k _ j _ => by simp only [exSteadyModel, exModel]; push_cast; ring,
      fun k _ => by norm_num [exSteadyModel, exModel], fun k _ => by norm_num [exSteadyModel, exModel]⟩
  have P : PhysicalStep lowered exSteadyGeo exSteadyInp := by
    constructor <;> intros <;> norm_num [lowered, Model.assignU, exSteadyModel, exSteadyGeo, exSteadyInp, exModel, exGeo, exInp]
  refine (C187_assigned_level_iff (m := exSteadyModel) (k := 0) (v := fun _ => 1.6) B
    ⟨C.layout, C.inN, C.nodes, C.Ju, C.Jd, C.Juo, C.Jdo, C.Juw, C.Jdw, C.Jup, C.Jdp⟩ P
    ⟨fun _ _ => Or.inl rfl, fun _ _ h => by simp [Model.assignU, exSteadyModel, exModel] at h⟩ ⟨fun k _ => ?_, fun k _ => ?_⟩
    lowered_steady (by norm_num [exSteadyModel, exModel]) (fun j _ => rfl) rfl).2.mpr ?_
  · norm_num [Model.assignU, levelFlow]
  · norm_num [Model.assignU, levelFlow, exSteadyModel]
  · norm_num [exSteadyModel, exModel]

end

end Pipedream.Step
