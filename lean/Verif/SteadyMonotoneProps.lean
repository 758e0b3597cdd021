import Verif.UniqueFlowProps

/-!
# C181: steady levels rise with inflows and fixed heads
-/

namespace Pipedream.Step

open Pipedream.Sweep Pipedream.Link Pipedream.Superlink Pipedream.Control Pipedream.Network

variable {m : Model} {geo : Geo} {inp inp' : Inputs} {s s' : Hyd} {zI : ℕ → ℝ}

noncomputable section

theorem linkLoss_mono (c : m.Consistent) (ps : PhysicalStep m geo inp) (rs : Resisting m) {k : ℕ} (hk : k < m.ix.NK) :
    Monotone (linkLoss m geo k) := fun a b h => by
  rcases h.lt_or_eq with h | rfl
  · exact (linkLoss_strict c ps rs hk h).le
  · exact le_rfl

/-- What two states of a network have in common in C181: no controls, no lateral inflow, pipe ends under water, steady. -/
structure Comparable (m : Model) (geo : Geo) (inp inp' : Inputs) (s s' : Hyd) (zI : ℕ → ℝ) : Prop where
  consistent : m.Consistent
  physical : PhysicalStep m geo inp
  resisting : Resisting m
  bed : Bed m zI
  n_o : m.n_o = 0
  n_w : m.n_w = 0
  n_p : m.n_p = 0
  lat : ∀ k, k < m.ix.NK → ∀ j, j ≤ m.ix.nk k → inp.Q_0Ik (m.ix.I_1k k + j) = 0
  lat' : ∀ k, k < m.ix.NK → ∀ j, j ≤ m.ix.nk k → inp'.Q_0Ik (m.ix.I_1k k + j) = 0
  physical' : PhysicalStep m geo inp'
  under : Submerged m s
  under' : Submerged m s'
  steady : Steady m geo inp s
  steady' : Steady m geo inp' s'

/-- The negative parts of the head differences agree at both ends of every superlink. -/
theorem neg_part_constant (h : Comparable m geo inp inp' s s' zI)
    (more : ∀ i, i < m.M → m.bc i = false → inp.Q_in i ≤ inp'.Q_in i)
    (higher : ∀ i, i < m.M → m.bc i = true → s.H i ≤ s'.H i) {k : ℕ} (hk : k < m.ix.NK) :
    min (s'.H (m.Ju k) - s.H (m.Ju k)) 0 = min (s'.H (m.Jd k) - s.H (m.Jd k)) 0 := by
  have c := h.consistent
  have a := fun k hk => C180_superlink c h.physical h.bed h.under h.steady hk (h.lat k hk)
  have b := fun k hk => C180_superlink c h.physical' h.bed h.under' h.steady' hk (h.lat' k hk)
  have bal : ∀ {i : Inputs} {t : Hyd}, Steady m geo i t → ∀ j, j < m.M → m.bc j = false →
      netInto m.ix.NK m.Ju m.Jd t.Qu t.Qd j = -i.Q_in j := by
    intro i t st j hj hb
    have := st.balance j hj hb
    rw [h.n_o, h.n_w, h.n_p] at this
    simp only [netInto, Finset.range_zero, Finset.sum_empty, add_zero] at this ⊢
    linarith
  have z : ∑ i ∈ Finset.range m.M, min (s'.H i - s.H i) 0 * netInto m.ix.NK m.Ju m.Jd s.Qu s.Qd i
      ≤ ∑ i ∈ Finset.range m.M, min (s'.H i - s.H i) 0 * netInto m.ix.NK m.Ju m.Jd s'.Qu s'.Qd i := by
    refine Finset.sum_le_sum fun i hi => ?_
    have hi := Finset.mem_range.mp hi
    rcases hb : m.bc i with _ | _
    · rw [bal h.steady i hi hb, bal h.steady' i hi hb]
      have := more i hi hb
      have n := min_le_right (s'.H i - s.H i) 0
      nlinarith
    · rw [min_eq_right (by have := higher i hi hb; linarith), zero_mul, zero_mul]
  rw [sum_netInto c.Ju c.Jd, sum_netInto c.Ju c.Jd, ← sub_nonneg, ← Finset.sum_sub_distrib] at z
  have e : ∀ k ∈ Finset.range m.ix.NK,
      min (s'.H (m.Jd k) - s.H (m.Jd k)) 0 * s'.Qd k - min (s'.H (m.Ju k) - s.H (m.Ju k)) 0 * s'.Qu k
        - (min (s'.H (m.Jd k) - s.H (m.Jd k)) 0 * s.Qd k - min (s'.H (m.Ju k) - s.H (m.Ju k)) 0 * s.Qu k)
      = -((min (s'.H (m.Ju k) - s.H (m.Ju k)) 0 - min (s'.H (m.Jd k) - s.H (m.Jd k)) 0) * (s'.Qu k - s.Qu k)) := by
    intro k hk
    have hk := Finset.mem_range.mp hk
    rw [(a k hk).1, (b k hk).1]
    ring
  rw [Finset.sum_congr rfl e, Finset.sum_neg_distrib] at z
  -- flow differences have the sign of the head differences
  have sg : ∀ k, k < m.ix.NK → (s'.H (m.Ju k) - s.H (m.Ju k) < s'.H (m.Jd k) - s.H (m.Jd k) → s'.Qu k < s.Qu k) ∧
      (s'.H (m.Jd k) - s.H (m.Jd k) < s'.H (m.Ju k) - s.H (m.Ju k) → s.Qu k < s'.Qu k) := by
    intro k hk
    have h1 := (a k hk).2.2
    have h2 := (b k hk).2.2
    have mo := linkLoss_mono c h.physical h.resisting hk
    constructor
    · intro lt
      by_contra hn
      have := mo (not_lt.mp hn)
      linarith
    · intro lt
      by_contra hn
      have := mo (not_lt.mp hn)
      linarith
  have pos : ∀ k, k < m.ix.NK →
      0 ≤ (min (s'.H (m.Ju k) - s.H (m.Ju k)) 0 - min (s'.H (m.Jd k) - s.H (m.Jd k)) 0) * (s'.Qu k - s.Qu k) ∧
      (min (s'.H (m.Ju k) - s.H (m.Ju k)) 0 ≠ min (s'.H (m.Jd k) - s.H (m.Jd k)) 0 →
        0 < (min (s'.H (m.Ju k) - s.H (m.Ju k)) 0 - min (s'.H (m.Jd k) - s.H (m.Jd k)) 0) * (s'.Qu k - s.Qu k)) := by
    intro k hk
    have hs := sg k hk
    generalize s'.H (m.Ju k) - s.H (m.Ju k) = A at hs ⊢
    generalize s'.H (m.Jd k) - s.H (m.Jd k) = B at hs ⊢
    rcases lt_trichotomy A B with lt | rfl | lt
    · have q := hs.1 lt
      have w := min_le_min_right 0 lt.le
      refine ⟨mul_nonneg_of_nonpos_of_nonpos (by linarith) (by linarith), fun ne => ?_⟩
      exact mul_pos_of_neg_of_neg (sub_neg.mpr (lt_of_le_of_ne w ne)) (by linarith)
    · exact ⟨by rw [sub_self, zero_mul], fun ne => absurd rfl ne⟩
    · have q := hs.2 lt
      have w := min_le_min_right 0 lt.le
      refine ⟨mul_nonneg (by linarith) (by linarith), fun ne => ?_⟩
      exact mul_pos (sub_pos.mpr (lt_of_le_of_ne w (Ne.symm ne))) (by linarith)
  have nn := fun k (hk : k ∈ Finset.range m.ix.NK) => (pos k (Finset.mem_range.mp hk)).1
  have s0 := Finset.sum_nonneg nn
  have each := (Finset.sum_eq_zero_iff_of_nonneg nn).mp (by linarith)
  by_contra ne
  exact ((pos k hk).2 ne).ne' (each k (Finset.mem_range.mpr hk))

/-! ### C181 -/

/-- **C181 (heads).** With at least as much inflow at every free superjunction and at least as high fixed heads, the steady head
of every superjunction joined, directly or through others, to a fixed head is at least as high. -/
theorem C181_heads (h : Comparable m geo inp inp' s s' zI)
    (more : ∀ i, i < m.M → m.bc i = false → inp.Q_in i ≤ inp'.Q_in i)
    (higher : ∀ i, i < m.M → m.bc i = true → s.H i ≤ s'.H i) {a b : ℕ} (ha : a < m.M) (fx : m.bc a = true)
    (ab : Relation.ReflTransGen (Joins m) a b) : s.H b ≤ s'.H b := by
  have key : min (s'.H a - s.H a) 0 = min (s'.H b - s.H b) 0 := by
    induction ab with
    | refl => rfl
    | tail _ j ih =>
      obtain ⟨k, hk, ⟨rfl, rfl⟩ | ⟨rfl, rfl⟩⟩ := j
      · exact ih.trans (neg_part_constant h more higher hk)
      · exact ih.trans (neg_part_constant h more higher hk).symm
  rw [min_eq_right (by have := higher a ha fx; linarith)] at key
  have := min_eq_right_iff.mp key.symm
  linarith

theorem lossAt_mono (c : m.Consistent) (ps : PhysicalStep m geo inp) (rs : Resisting m) {k j : ℕ} (hk : k < m.ix.NK)
    (hj : j < m.ix.nk k) : Monotone (lossAt m geo k j) := fun a b h => by
  have lt := c.inN k hk
  rcases h.lt_or_eq with h | rfl
  · exact (lossAt_strict ps rs (by omega) h).le
  · exact le_rfl

/-- **C181 (depths).** So is the water in every superlink whose ends are joined to a fixed head. -/
theorem C181_depths (h : Comparable m geo inp inp' s s' zI)
    (more : ∀ i, i < m.M → m.bc i = false → inp.Q_in i ≤ inp'.Q_in i)
    (higher : ∀ i, i < m.M → m.bc i = true → s.H i ≤ s'.H i) {a k : ℕ} (ha : a < m.M) (fx : m.bc a = true)
    (hk : k < m.ix.NK) (au : Relation.ReflTransGen (Joins m) a (m.Ju k)) {j : ℕ} (hj : j ≤ m.ix.nk k) :
    s.h (m.ix.I_1k k + j) ≤ s'.h (m.ix.I_1k k + j) := by
  have c := h.consistent
  have ps := h.physical
  have Hu := C181_heads h more higher ha fx au
  have Hd := C181_heads h more higher ha fx (au.tail ⟨k, hk, Or.inl ⟨rfl, rfl⟩⟩)
  have A := C180_superlink c ps h.bed h.under h.steady hk (h.lat k hk)
  have B := C180_superlink c h.physical' h.bed h.under' h.steady' hk (h.lat' k hk)
  have Cu := ps.Cu k hk
  have Cd := ps.Cd k hk
  have hg := ps.g_pos
  have e : ∀ C A q : ℝ, |q| * C / (2 * m.g * A ^ 2) * q = C / (2 * m.g * A ^ 2) * (|q| * q) := by intros; ring
  have f := fall_sum (s := s) h.bed hk j hj
  have f' := fall_sum (s := s') h.bed hk j hj
  have g := fall_sum (s := s) h.bed hk _ le_rfl
  have g' := fall_sum (s := s') h.bed hk _ le_rfl
  have l : ∀ i, i < m.ix.nk k → surfaceFall m s k i = lossAt m geo k i (s.Qu k) := by
    intro i hi
    rw [C172_surface ps c h.steady hk (h.lat k hk) hi]
    simp only [headLoss, lossAt, A.2.1 i hi]
  have l' : ∀ i, i < m.ix.nk k → surfaceFall m s' k i = lossAt m geo k i (s'.Qu k) := by
    intro i hi
    rw [C172_surface h.physical' c h.steady' hk (h.lat' k hk) hi]
    simp only [headLoss, lossAt, B.2.1 i hi]
  have hu := h.steady.up k hk
  have hu' := h.steady'.up k hk
  have hd := h.steady.down k hk
  have hd' := h.steady'.down k hk
  rw [if_pos (h.under.up k hk), e] at hu
  rw [if_pos (h.under'.up k hk), e] at hu'
  rw [if_pos (h.under.down k hk), A.1, e] at hd
  rw [if_pos (h.under'.down k hk), B.1, e] at hd'
  rw [h.bed.up k hk] at f f' g g'
  rw [h.bed.down k hk] at g g'
  have sq : ∀ {a b : ℝ}, a ≤ b → |a| * a ≤ |b| * b := by
    intro a b hab
    rcases hab.lt_or_eq with hab | rfl
    · exact (odd_mono (φ := fun x => x) (fun _ h => h) (fun _ _ _ h => h) hab).le
    · exact le_rfl
  rcases le_total (s'.Qu k) (s.Qu k) with q | q
  · -- less flow: compare from the upstream end
    have sm : ∑ i ∈ Finset.range j, surfaceFall m s' k i ≤ ∑ i ∈ Finset.range j, surfaceFall m s k i := by
      refine Finset.sum_le_sum fun i hi => ?_
      have hi : i < m.ix.nk k := by have := Finset.mem_range.mp hi; omega
      rw [l i hi, l' i hi]
      exact lossAt_mono c ps h.resisting hk hi q
    have eu : m.C_uk k / (2 * m.g * geo.A_u k ^ 2) * (|s'.Qu k| * s'.Qu k)
        ≤ m.C_uk k / (2 * m.g * geo.A_u k ^ 2) * (|s.Qu k| * s.Qu k) := mul_le_mul_of_nonneg_left (sq q) (by positivity)
    linarith
  · -- more flow: compare from the downstream end
    have sm : ∑ i ∈ Finset.range (m.ix.nk k), surfaceFall m s k i - ∑ i ∈ Finset.range j, surfaceFall m s k i
        ≤ ∑ i ∈ Finset.range (m.ix.nk k), surfaceFall m s' k i - ∑ i ∈ Finset.range j, surfaceFall m s' k i := by
      rw [← Finset.sum_Ico_eq_sub _ hj, ← Finset.sum_Ico_eq_sub _ hj]
      refine Finset.sum_le_sum fun i hi => ?_
      have hi := (Finset.mem_Ico.mp hi).2
      rw [l i hi, l' i hi]
      exact lossAt_mono c ps h.resisting hk hi q
    have ed : m.C_dk k / (2 * m.g * geo.A_d k ^ 2) * (|s.Qu k| * s.Qu k)
        ≤ m.C_dk k / (2 * m.g * geo.A_d k ^ 2) * (|s'.Qu k| * s'.Qu k) := mul_le_mul_of_nonneg_left (sq q) (by positivity)
    linarith

/-! ### A case meeting the hypotheses -/

/-- The steadily flowing pipe with its lower head held at 2.7. -/
def heldSteady : Model := { exSteadyModel with bc := fun i => i == 1 }

/-- The same pipe at rest at that level, nothing being supplied. -/
def restHeld : Hyd := { exStill with H := fun _ => 2.7, h := fun I => 2.7 - (2 - I / 10) }

theorem heldComparable : Comparable heldSteady exSteadyGeo { exSteadyInp with Q_in := fun _ => 0 } exSteadyInp restHeld exSteady
    (fun I => 2 - I / 10) := by
  have C : heldSteady.Consistent :=
    ⟨exSteadyConsistent.layout, exSteadyConsistent.inN, exSteadyConsistent.nodes, exSteadyConsistent.Ju, exSteadyConsistent.Jd,
      exSteadyConsistent.Juo, exSteadyConsistent.Jdo, exSteadyConsistent.Juw, exSteadyConsistent.Jdw, exSteadyConsistent.Jup,
      exSteadyConsistent.Jdp⟩
  have ar : ∀ k j, arriving heldSteady restHeld k j = 0 := by
    intro k j; unfold arriving; split_ifs <;> rfl
  have le : ∀ k j, leaving heldSteady restHeld k j = 0 := by
    intro k j; unfold leaving; split_ifs <;> rfl
  refine ⟨C, ?_, ⟨fun _ _ => Or.inl rfl, fun _ _ h => by simp [heldSteady, exSteadyModel, exModel] at h⟩,
    ⟨fun k _ j _ => by simp only [heldSteady, exSteadyModel, exModel]; push_cast; ring,
      fun k _ => by norm_num [heldSteady, exSteadyModel, exModel], fun k _ => by norm_num [heldSteady, exSteadyModel, exModel]⟩,
    rfl, rfl, rfl, fun _ _ _ _ => rfl, fun _ _ _ _ => rfl, ?_, ?_, ?_, ?_, ?_⟩
  · constructor <;> intros <;> norm_num [heldSteady, exSteadyModel, exSteadyGeo, exSteadyInp, exModel, exGeo, exInp]
  · constructor <;> intros <;> norm_num [heldSteady, exSteadyModel, exSteadyGeo, exSteadyInp, exModel, exGeo, exInp]
  · constructor <;> intro k _ <;> norm_num [heldSteady, exSteadyModel, restHeld, exModel]
  · constructor <;> intro k _ <;> norm_num [heldSteady, exSteadyModel, exSteady, exModel]
  · refine ⟨fun i _ _ f hf => ?_, fun i hi _ => ?_, fun k hk j hj => ?_, fun k hk j hj => ?_, fun k hk => ?_,
      fun k hk => ?_, ?_, ?_, ?_⟩
    · simp [exSteadyInp, exInp] at hf
    · simp [netInto, heldSteady, exSteadyModel, restHeld, exStill]
    · rw [ar, le]
      simp only [restHeld, exStill, heldSteady, exSteadyModel, exModel, exSteadyGeo, exGeo]
      push_cast
      norm_num
      ring
    · rw [ar, le]; simp [exSteadyInp, exInp]
    · norm_num [heldSteady, exSteadyModel, exModel, restHeld, exStill]
    · norm_num [heldSteady, exSteadyModel, exModel, restHeld, exStill]
    · intro o ho; simp [heldSteady, exSteadyModel] at ho
    · intro o ho; simp [heldSteady, exSteadyModel] at ho
    · intro o ho; simp [heldSteady, exSteadyModel] at ho
  · have h := exSteadyOk
    refine ⟨fun i _ _ f hf => by simp [exSteadyInp, exInp] at hf,
      fun i hi _ => h.balance i hi (by simp [exSteadyModel, exModel]), h.momentum, h.continuity, h.up, h.down, h.orifices, h.weirs, h.pumps⟩

/-- One unit of inflow at the upper end raises the level there, from 2.7 to 3.1. -/
example : restHeld.H 0 ≤ exSteady.H 0 :=
  C181_heads heldComparable (fun i hi hb => by
      obtain rfl | rfl : i = 0 ∨ i = 1 := by simp [heldSteady, exSteadyModel, exModel] at hi; omega
      · norm_num [exSteadyInp]
      · simp [heldSteady] at hb)
    (fun i hi hb => by
      obtain rfl | rfl : i = 0 ∨ i = 1 := by simp [heldSteady, exSteadyModel, exModel] at hi; omega
      · simp [heldSteady] at hb
      · norm_num [restHeld, exSteady])
    (a := 1) (by norm_num [heldSteady, exSteadyModel, exModel]) rfl
    (.single ⟨0, by norm_num [heldSteady, exSteadyModel, exModel], Or.inr ⟨rfl, rfl⟩⟩)

end

end Pipedream.Step
