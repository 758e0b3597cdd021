import Verif.GeometryLemmas
import Verif.ControlProps

/-!
# Cross sections: properties C22 (opening zero), C28–C32, C64
-/

namespace Pipedream.Geometry

open Pipedream.Link (PyErr)

/-- Physically meaningful section parameters. -/
def Valid (s : Shape) (p : GP) : Prop :=
  0 < p.g1 ∧ match s with
  | .circular => True
  | .rectClosed => 0 < p.g2
  | .rectOpen => 0 < p.g2
  | .triangular => 0 < p.g2
  | .trapezoidal => 0 < p.g2 ∧ 0 ≤ p.g3
  | .parabolic => 0 < p.g2
  | .elliptical => 0 < p.g2
  | .wide => 0 < p.g2
  | .forceMain => True
  | .floodplain => 0 ≤ p.g2 ∧ 0 ≤ p.g3 ∧ 0 ≤ p.g4 ∧ 0 ≤ p.g5 ∧ 0 ≤ p.g6 ∧ 0 ≤ p.g7

/-- Every area is a non-decreasing function of the clamped depth. -/
theorem area_profile (s : Shape) (p : GP) (hv : Valid s p) :
    ∃ F : ℝ → ℝ, (∀ y y', 0 ≤ y → y ≤ y' → y' ≤ p.g1 → F y ≤ F y') ∧ 0 ≤ F 0 ∧
      (s ≠ .forceMain → F 0 = 0) ∧ ∀ h1 h2, area s p h1 h2 = F (depth h1 h2 p.g1) := by
  obtain ⟨h1, hv⟩ := hv
  cases s
  · exact ⟨circF p.g1, fun y y' _ h _ => circF_mono h1 h, (circF_zero _).ge, fun _ => circF_zero _,
      fun a b => circularA_eq a b h1⟩
  · exact ⟨fun y => y * p.g2, fun y y' h0 h _ => mul_le_mul_of_nonneg_right h (le_of_lt hv), by simp,
      fun _ => by simp, fun a b => rfl⟩
  · exact ⟨fun y => y * p.g2, fun y y' h0 h _ => mul_le_mul_of_nonneg_right h (le_of_lt hv), by simp,
      fun _ => by simp, fun a b => rfl⟩
  · refine ⟨fun y => p.g2 * y ^ 2, fun y y' h0 h _ => ?_, by simp, fun _ => by simp, fun a b => rfl⟩
    have hv : 0 < p.g2 := hv
    simp only; gcongr
  · obtain ⟨h2, h3⟩ := hv
    refine ⟨fun y => y * (p.g2 + p.g3 * y), fun y y' h0 h _ => ?_, by simp, fun _ => by simp, fun a b => rfl⟩
    have : 0 ≤ y' := h0.trans h
    simp only; gcongr
  · refine ⟨fun y => 2 * p.g2 * y / 3, fun y y' h0 h _ => ?_, by simp, fun _ => by simp, fun a b => rfl⟩
    have hv : 0 < p.g2 := hv
    simp only; gcongr
  · exact ⟨ellF p.g1 p.g2, fun y y' _ h _ => ellF_mono h1 (le_of_lt hv) h, (ellF_zero h1).ge,
      fun _ => ellF_zero h1, fun a b => ellipticalA_eq a b _ _⟩
  · exact ⟨fun y => y * p.g2, fun y y' h0 h _ => mul_le_mul_of_nonneg_right h (le_of_lt hv), by simp,
      fun _ => by simp, fun a b => rfl⟩
  · exact ⟨fun _ => Real.pi * (p.g1 / 2) ^ 2, fun _ _ _ _ _ => le_rfl, by positivity, fun h => absurd rfl h,
      fun _ _ => rfl⟩
  · obtain ⟨h2, h3, h4, h5, h6, h7⟩ := hv
    exact ⟨floodF p.g2 p.g3 p.g4 p.g5 p.g6 p.g7, fun y y' h0 h _ => floodF_mono h2 h3 h4 h5 h6 h7 h0 h,
      (floodF_zero h2 h3).ge, fun _ => floodF_zero h2 h3, fun a b => floodplainA_eq a b _ _ _ _ _ _ _ h1.le h3⟩

/-! ### C28 -/

/-- **C28.** For every shape, every valid parameter set and all depths at the two ends: the flow area is
non-negative, does not decrease when the mean depth increases, and does not change above the section
height; an empty section (other than a force main, which always runs full) has area zero. -/
theorem C28_area (s : Shape) (p : GP) (hv : Valid s p) :
    (∀ h1 h2, 0 ≤ area s p h1 h2) ∧
    (∀ h1 h2 h1' h2', h1 + h2 ≤ h1' + h2' → area s p h1 h2 ≤ area s p h1' h2') ∧
    (∀ h1 h2 h1' h2', 2 * p.g1 ≤ h1 + h2 → 2 * p.g1 ≤ h1' + h2' → area s p h1 h2 = area s p h1' h2') ∧
    (s ≠ .forceMain → ∀ h1 h2, h1 + h2 ≤ 0 → area s p h1 h2 = 0) := by
  obtain ⟨F, hm, h0, hz, hF⟩ := area_profile s p hv
  have hg := hv.1.le
  refine ⟨fun a b => ?_, fun a b a' b' h => ?_, fun a b a' b' h h' => ?_, fun hs a b h => ?_⟩
  · rw [hF]; exact h0.trans (hm 0 _ le_rfl (depth_nonneg a b hg) (depth_le a b _))
  · rw [hF, hF]; exact hm _ _ (depth_nonneg a b hg) (depth_mono _ h) (depth_le _ _ _)
  · rw [hF, hF, depth_full h, depth_full h']
  · rw [hF, depth_empty hg h, hz hs]

/-- A wet section has positive area. -/
theorem area_pos_rect (p : GP) (hv : Valid .rectOpen p) (h1 h2 : ℝ) (h : 0 < h1 + h2) :
    0 < area .rectOpen p h1 h2 := by
  have hd : 0 < depth h1 h2 p.g1 := by
    rw [depth_eq]; exact lt_min (lt_max_of_lt_left (by linarith)) hv.1
  exact mul_pos hd hv.2

/-! ### C29 -/

/-- Glue: the square of the positive part is differentiable everywhere. -/
theorem hasDerivAt_sq_max (c y : ℝ) :
    HasDerivAt (fun y : ℝ => max (y - c) 0 ^ 2) (2 * max (y - c) 0) y := by
  have hq : HasDerivAt (fun y : ℝ => (y - c) ^ 2) (2 * (y - c)) y := by
    exact (((hasDerivAt_id y).sub_const c).pow 2).congr_deriv (by simp)
  rcases lt_trichotomy y c with h | h | h
  · have : (fun y : ℝ => max (y - c) 0 ^ 2) =ᶠ[nhds y] fun _ => 0 := by
      filter_upwards [Iio_mem_nhds h] with z hz
      rw [max_eq_right (by linarith [Set.mem_Iio.mp hz])]; simp
    rw [max_eq_right (by linarith)]
    simpa using (hasDerivAt_const y (0:ℝ)).congr_of_eventuallyEq this
  · subst h
    rw [sub_self, max_self, mul_zero]
    rw [sub_self, mul_zero] at hq
    rw [← hasDerivWithinAt_univ, ← Set.Iic_union_Ici (a := y)]
    apply HasDerivWithinAt.union
    · refine (hasDerivWithinAt_const y (Set.Iic y) (0:ℝ)).congr (fun z hz => ?_) (by simp)
      rw [max_eq_right (by linarith [Set.mem_Iic.mp hz])]; simp
    · refine hq.hasDerivWithinAt.congr (fun z hz => ?_) (by simp)
      rw [max_eq_left (by linarith [Set.mem_Ici.mp hz])]
  · have : (fun y : ℝ => max (y - c) 0 ^ 2) =ᶠ[nhds y] fun y => (y - c) ^ 2 := by
      filter_upwards [Ioi_mem_nhds h] with z hz
      rw [max_eq_left (by linarith [Set.mem_Ioi.mp hz])]
    rw [max_eq_left (by linarith)]
    exact hq.congr_of_eventuallyEq this

theorem floodF_alt (g2 g3 g4 g5 g6 g7 y : ℝ) (H3 : 0 ≤ g3) : floodF g2 g3 g4 g5 g6 g7 y =
    g5 * (y ^ 2 - max (y - g2) 0 ^ 2) + g6 * (max (y - g2) 0 ^ 2 - max (y - (g2 + g3)) 0 ^ 2)
      + g4 * max (y - (g2 + g3)) 0 ^ 2 + g7 * y := by
  unfold floodF
  rcases le_total y g2 with a | a
  · have e1 : min y g2 = y := min_eq_left a
    have e2 : max (y - g2) 0 = 0 := max_eq_right (by linarith)
    have e3 : max (y - (g2 + g3)) 0 = 0 := max_eq_right (by linarith)
    rw [e1, e2, e3, min_eq_left H3]; ring
  · have e1 : min y g2 = g2 := min_eq_right a
    have e2 : max (y - g2) 0 = y - g2 := max_eq_left (by linarith)
    rcases le_total y (g2 + g3) with b | b
    · have e3 : max (y - (g2 + g3)) 0 = 0 := max_eq_right (by linarith)
      rw [e1, e2, e3, min_eq_left (by linarith)]; ring
    · have e3 : max (y - (g2 + g3)) 0 = y - (g2 + g3) := max_eq_left (by linarith)
      rw [e1, e2, e3, min_eq_right (by linarith)]; ring

theorem floodF_hasDerivAt (g2 g3 g4 g5 g6 g7 y : ℝ) (H3 : 0 ≤ g3) :
    HasDerivAt (floodF g2 g3 g4 g5 g6 g7) (g5 * (2 * y - 2 * max (y - g2) 0)
      + g6 * (2 * max (y - g2) 0 - 2 * max (y - (g2 + g3)) 0) + g4 * (2 * max (y - (g2 + g3)) 0) + g7) y := by
  have hy : HasDerivAt (fun y : ℝ => y ^ 2) (2 * y) y := by
    exact ((hasDerivAt_id y).pow 2).congr_deriv (by simp)
  have hu := hasDerivAt_sq_max g2 y
  have hw := hasDerivAt_sq_max (g2 + g3) y
  have := ((((hy.sub hu).const_mul g5).add ((hu.sub hw).const_mul g6)).add (hw.const_mul g4)).add
    ((hasDerivAt_id y).const_mul g7)
  rw [mul_one] at this
  refine HasDerivAt.congr_of_eventuallyEq this (Filter.Eventually.of_forall fun z => ?_)
  rw [floodF_alt _ _ _ _ _ _ _ H3]; rfl

/-- Reduce to the profile. -/
theorem hasDerivAt_area {s : Shape} {p : GP} {F : ℝ → ℝ} {b y : ℝ}
    (hF : ∀ h1 h2, area s p h1 h2 = F (depth h1 h2 p.g1)) (h0 : 0 < y) (h1 : y < p.g1) (hd : HasDerivAt F b y) :
    HasDerivAt (fun y => area s p y y) b y := by
  refine hd.congr_of_eventuallyEq ?_
  filter_upwards [Ioo_mem_nhds h0 h1] with z hz
  rw [hF, depth_same hz.1.le hz.2.le]

/-- **C29 (partial).** For circular, rectangular, triangular, trapezoidal, wide and compound sections the
top width is the derivative of the area at every depth strictly between empty and full. Missing: parabolic
and elliptical sections, for which the claim is false (next two theorems). -/
theorem C29_width_partial (s : Shape) (p : GP) (hv : Valid s p) (hp : s ≠ .parabolic) (he : s ≠ .elliptical)
    (hf : s ≠ .forceMain) (y : ℝ) (h0 : 0 < y) (h1 : y < p.g1) :
    HasDerivAt (fun y => area s p y y) (topWidth s p y y) y := by
  have hw : wet y y = y := wet_same h0.le
  have hdp : depth y y p.g1 = y := depth_same h0.le h1.le
  obtain ⟨hg, hv⟩ := hv
  cases s
  · refine hasDerivAt_area (F := circF p.g1) (fun a b => circularA_eq a b hg) h0 h1 ?_
    have := circF_hasDerivAt h0 h1
    simpa only [topWidth, circularB, hw, if_pos h1, circTheta_eq hg h0.le h1.le] using this
  · refine hasDerivAt_area (F := fun y => y * p.g2) (fun a b => rfl) h0 h1 ?_
    simpa [topWidth, rectClosedB, hw, h1] using (hasDerivAt_id y).mul_const p.g2
  · refine hasDerivAt_area (F := fun y => y * p.g2) (fun a b => rfl) h0 h1 ?_
    simpa [topWidth, rectOpenB] using (hasDerivAt_id y).mul_const p.g2
  · refine hasDerivAt_area (F := fun y => p.g2 * y ^ 2) (fun a b => rfl) h0 h1 ?_
    have := ((hasDerivAt_id y).pow 2).const_mul p.g2
    simp only [topWidth, triangularB, hw, if_pos h1]
    refine this.congr_deriv ?_
    simp; ring
  · refine hasDerivAt_area (F := fun y => y * (p.g2 + p.g3 * y)) (fun a b => rfl) h0 h1 ?_
    have := (hasDerivAt_id y).mul (((hasDerivAt_id y).const_mul p.g3).const_add p.g2)
    simp only [topWidth, trapezoidalB, hw, if_pos h1]
    refine this.congr_deriv ?_
    simp; ring
  · exact absurd rfl hp
  · exact absurd rfl he
  · refine hasDerivAt_area (F := fun y => y * p.g2) (fun a b => rfl) h0 h1 ?_
    simpa [topWidth, rectOpenB] using (hasDerivAt_id y).mul_const p.g2
  · exact absurd rfl hf
  · obtain ⟨h2, h3, h4, h5, h6, h7⟩ := hv
    refine hasDerivAt_area (F := floodF p.g2 p.g3 p.g4 p.g5 p.g6 p.g7)
      (fun a b => floodplainA_eq a b _ _ _ _ _ _ _ hg.le h3) h0 h1 ?_
    refine (floodF_hasDerivAt _ _ _ _ _ _ y h3).congr_deriv ?_
    have hi : ind y = 1 := by simp [ind, h0]
    simp only [topWidth, floodplainB, hdp, hi]
    split_ifs with a b
    · rw [max_eq_right (by linarith), max_eq_right (by linarith)]; ring
    · rw [max_eq_left (by linarith), max_eq_right (by linarith)]; ring
    · rw [max_eq_left (by linarith), max_eq_left (by linarith)]; ring

/-- **C29 is false for parabolic sections:** the area is linear in depth while the width is not, so width and
derivative agree at exactly one depth, 4/9 of the height. -/
theorem C29_parabolic_iff (p : GP) (hv : Valid .parabolic p) (y : ℝ) (h0 : 0 < y) (h1 : y < p.g1) :
    HasDerivAt (fun y => area .parabolic p y y) (topWidth .parabolic p y y) y ↔ y = 4 / 9 * p.g1 := by
  obtain ⟨hg, hb⟩ := hv
  have hb : 0 < p.g2 := hb
  have hd : HasDerivAt (fun y => area .parabolic p y y) (2 * p.g2 / 3) y := by
    refine hasDerivAt_area (F := fun y => 2 * p.g2 * y / 3) (fun a b => rfl) h0 h1 ?_
    simpa using ((hasDerivAt_id y).const_mul (2 * p.g2)).div_const 3
  have hw : topWidth .parabolic p y y = p.g2 * Real.sqrt (y / p.g1) := by
    simp only [topWidth, parabolicB, wet_same h0.le]
  rw [hw]
  have hn : 0 ≤ y / p.g1 := div_nonneg h0.le hg.le
  constructor
  · intro h
    have e := h.unique hd
    have e2 : Real.sqrt (y / p.g1) = 2 / 3 := by
      have : p.g2 * Real.sqrt (y / p.g1) = p.g2 * (2 / 3) := by rw [e]; ring
      exact mul_left_cancel₀ hb.ne' this
    have e3 : y / p.g1 = 4 / 9 := by
      have := Real.sq_sqrt hn
      rw [e2] at this; rw [← this]; norm_num
    rw [div_eq_iff hg.ne'] at e3; exact e3
  · intro h
    have : Real.sqrt (y / p.g1) = 2 / 3 := by
      rw [h, mul_div_assoc, div_self hg.ne', mul_one, Real.sqrt_eq_iff_mul_self_eq] <;> norm_num
    rw [this]
    exact hd.congr_deriv (by ring)

/-- **C29 is false for elliptical sections** unless the ellipse is a circle: the width is right only at mid
height. -/
theorem C29_elliptical_iff (p : GP) (hv : Valid .elliptical p) (y : ℝ) (h0 : 0 < y) (h1 : y < p.g1) :
    HasDerivAt (fun y => area .elliptical p y y) (topWidth .elliptical p y y) y ↔
      p.g1 = p.g2 ∨ y = p.g1 / 2 := by
  obtain ⟨hg, hb⟩ := hv
  have hb : 0 < p.g2 := hb
  have hd := hasDerivAt_area (s := .elliptical) (p := p) (F := ellF p.g1 p.g2)
    (fun a b => ellipticalA_eq a b _ _) h0 h1 (ellF_hasDerivAt (g2 := p.g2) h0 h1)
  have hdp : depth y y p.g1 = y := depth_same h0.le h1.le
  have hr : (0:ℝ) < p.g1 / 2 := by linarith
  set s : ℝ := (y - p.g1 / 2) / (p.g1 / 2) with hs
  have hs1 : s < 1 := by rw [hs, div_lt_one hr]; linarith
  have hs2 : -1 < s := by rw [hs, lt_div_iff₀ hr]; linarith
  have hw : topWidth .elliptical p y y = 2 * Real.cos (Real.arcsin s) *
      Real.sqrt ((p.g2 / 2) ^ 2 * Real.cos (Real.arcsin s) ^ 2 + (p.g1 / 2) ^ 2 * s ^ 2) := by
    simp only [topWidth, ellipticalB, hdp]
    rw [← hs, Real.sin_arcsin hs2.le hs1.le]
  have hc : 0 < Real.cos (Real.arcsin s) := by
    rw [Real.cos_arcsin]; exact Real.sqrt_pos.mpr (by nlinarith)
  have hc2 : Real.cos (Real.arcsin s) ^ 2 = 1 - s ^ 2 := by
    have := Real.sin_sq_add_cos_sq (Real.arcsin s)
    rw [Real.sin_arcsin hs2.le hs1.le] at this; linarith
  have hnn : 0 ≤ (p.g2 / 2) ^ 2 * (1 - s ^ 2) + (p.g1 / 2) ^ 2 * s ^ 2 := by
    have : 0 ≤ 1 - s ^ 2 := by nlinarith
    positivity
  have key : topWidth .elliptical p y y = p.g2 * Real.cos (Real.arcsin s) ↔ p.g1 = p.g2 ∨ y = p.g1 / 2 := by
    rw [hw, hc2]
    constructor
    · intro h
      have e : Real.sqrt ((p.g2 / 2) ^ 2 * (1 - s ^ 2) + (p.g1 / 2) ^ 2 * s ^ 2) = p.g2 / 2 := by
        apply mul_left_cancel₀ hc.ne'
        linear_combination h / 2
      have e2 := Real.sq_sqrt hnn
      rw [e] at e2
      have e3 : s ^ 2 * ((p.g1 - p.g2) * (p.g1 + p.g2)) = 0 := by linear_combination (-4:ℝ) * e2
      rcases mul_eq_zero.mp e3 with h' | h'
      · right
        have : s = 0 := pow_eq_zero_iff (two_ne_zero) |>.mp h'
        rw [hs, div_eq_zero_iff] at this
        rcases this with h'' | h''
        · linarith
        · exact absurd h'' hr.ne'
      · left
        rcases mul_eq_zero.mp h' with h'' | h''
        · linarith
        · nlinarith
    · intro h
      have e : (p.g2 / 2) ^ 2 * (1 - s ^ 2) + (p.g1 / 2) ^ 2 * s ^ 2 = (p.g2 / 2) ^ 2 := by
        rcases h with h | h
        · rw [h]; ring
        · have : s = 0 := by rw [hs, h]; simp
          rw [this]; ring
      rw [e, Real.sqrt_sq (by linarith)]; ring
  rw [← key]
  constructor
  · intro h; exact h.unique hd
  · intro h; rw [h]; exact hd

/-! ### C30 -/

theorem parabolicPe_pos {eps : ℝ} (he : 0 < eps) (h1 h2 : ℝ) {g1 g2 : ℝ} (H1 : 0 < g1) (H2 : 0 < g2) :
    0 < parabolicPe eps h1 h2 g1 g2 := by
  have hy : ∀ y : ℝ, 0 < y → 0 < (if y > g1 then g1 else y) := by
    intro y hy; split_ifs <;> assumption
  have hy2 : 0 < (if (if (h1 + h2) / 2 ≤ 0 then eps else (h1 + h2) / 2) > g1 then g1 else
      (if (h1 + h2) / 2 ≤ 0 then eps else (h1 + h2) / 2)) := by
    apply hy; split_ifs with h
    · exact he
    · exact not_le.mp h
  simp only [parabolicPe]
  generalize (if (if (h1 + h2) / 2 ≤ 0 then eps else (h1 + h2) / 2) > g1 then g1 else
      (if (h1 + h2) / 2 ≤ 0 then eps else (h1 + h2) / 2)) = y at hy2
  have hx : 0 < 4 * y / g2 := by positivity
  generalize 4 * y / g2 = x at hx
  have hs : 1 ≤ Real.sqrt (1 + x ^ 2) := by
    rw [Real.one_le_sqrt]; nlinarith
  have hl : 0 ≤ Real.log (x + Real.sqrt (1 + x ^ 2)) := Real.log_nonneg (by linarith)
  positivity

/-- Wetted perimeters are non-negative, and positive for wet sections. -/
theorem perimeter_nonneg (eps old : ℝ) (he : 0 < eps) (s : Shape) (p : GP) (hv : Valid s p) (ho : 0 ≤ old)
    (h1 h2 : ℝ) : 0 ≤ perimeter eps old s p h1 h2 := by
  obtain ⟨hg, hv⟩ := hv
  have hd := depth_nonneg h1 h2 hg.le
  cases s <;> simp only [perimeter] at *
  · simp only [circularPe, circTheta]; exact mul_nonneg (by linarith) (Real.arccos_nonneg _)
  · have hv : 0 < p.g2 := hv
    simp only [rectPe]; positivity
  · have hv : 0 < p.g2 := hv
    simp only [rectPe]; positivity
  · simp only [triangularPe]; positivity
  · obtain ⟨h2, h3⟩ := hv; simp only [trapezoidalPe]; positivity
  · exact (parabolicPe_pos he h1 h2 hg hv).le
  · exact ho
  · exact le_of_lt hv
  · simp only [forceMainPe]; positivity
  · obtain ⟨h2', h3, h4, h5, h6, h7⟩ := hv
    simp only [floodplainPe]
    generalize depth h1 h2 p.g1 = y at hd
    have hi : 0 ≤ ind y := by unfold ind; split_ifs <;> norm_num
    unfold tiers
    split_ifs with a b <;> simp only
    · positivity
    · have := not_lt.mp a
      have : 0 ≤ y - p.g2 := by linarith
      positivity
    · have := not_lt.mp b
      have e : p.g2 + p.g3 - p.g2 = p.g3 := by ring
      have : 0 ≤ y - (p.g2 + p.g3) := by linarith
      rw [e]; positivity

/-- **C30.** For every shape and all depths the hydraulic radius is non-negative, and is area over wetted
perimeter whenever that perimeter is positive, otherwise 0. -/
theorem C30_hydraulic_radius (eps old : ℝ) (he : 0 < eps) (s : Shape) (p : GP) (hv : Valid s p) (ho : 0 ≤ old)
    (h1 h2 : ℝ) :
    let A := area s p h1 h2
    let Pe := perimeter eps old s p h1 h2
    0 ≤ hydRadius A Pe ∧ (0 < Pe → hydRadius A Pe * Pe = A) ∧ (Pe = 0 → hydRadius A Pe = 0) := by
  intro A Pe
  have hP : 0 ≤ Pe := perimeter_nonneg eps old he s p hv ho h1 h2
  have hA : 0 ≤ A := (C28_area s p hv).1 h1 h2
  unfold hydRadius
  refine ⟨?_, fun h => ?_, fun h => ?_⟩
  · split_ifs
    · exact div_nonneg hA hP
    · exact le_rfl
  · rw [if_pos h, div_mul_cancel₀ _ h.ne']
  · rw [if_neg (by rw [h]; exact lt_irrefl _)]

/-- **C30 (bound).** For sections with a flat bottom of width `g2` the radius is at most area over bottom. -/
theorem C30_flat_bottom (eps old : ℝ) (s : Shape) (p : GP) (hv : Valid s p)
    (hs : s = .rectClosed ∨ s = .rectOpen ∨ s = .trapezoidal ∨ s = .wide) (h1 h2 : ℝ) :
    hydRadius (area s p h1 h2) (perimeter eps old s p h1 h2) ≤ area s p h1 h2 / p.g2 := by
  have hA := (C28_area s p hv).1 h1 h2
  have hd := depth_nonneg h1 h2 hv.1.le
  have hg2 : 0 < p.g2 := by
    rcases hs with rfl | rfl | rfl | rfl
    · exact hv.2
    · exact hv.2
    · exact hv.2.1
    · exact hv.2
  have hP : p.g2 ≤ perimeter eps old s p h1 h2 := by
    rcases hs with rfl | rfl | rfl | rfl
    · simp only [perimeter, rectPe]; linarith
    · simp only [perimeter, rectPe]; linarith
    · simp only [perimeter, trapezoidalPe]
      have : 0 ≤ 2 * depth h1 h2 p.g1 * Real.sqrt (1 + p.g3 ^ 2) := by positivity
      linarith
    · simp only [perimeter, widePe]; exact le_rfl
  unfold hydRadius
  rw [if_pos (lt_of_lt_of_le hg2 hP)]
  exact div_le_div_of_nonneg_left hA hg2 hP

/-! ### C31 -/

/-- **C31 (partial).** A full circle has area `π r²` and perimeter `2 π r`, a full rectangle area `b h`, a full
ellipse area `π a b`. Missing: the perimeter of the full closed rectangle, which is wrong (next theorem). -/
theorem C31_full_sections_partial (p : GP) (eps old h1 h2 : ℝ) (hg : 0 < p.g1) (h : 2 * p.g1 ≤ h1 + h2) :
    area .circular p h1 h2 = Real.pi * (p.g1 / 2) ^ 2 ∧
    perimeter eps old .circular p h1 h2 = 2 * Real.pi * (p.g1 / 2) ∧
    area .rectClosed p h1 h2 = p.g2 * p.g1 ∧
    area .elliptical p h1 h2 = Real.pi * (p.g2 / 2) * (p.g1 / 2) ∧
    area .forceMain p h1 h2 = Real.pi * (p.g1 / 2) ^ 2 := by
  have hd := depth_full h
  refine ⟨?_, ?_, ?_, ?_, rfl⟩
  · simp only [area]; rw [circularA_eq _ _ hg, hd, circF_full hg]
  · simp only [perimeter, circularPe, hd]
    rw [circTheta_eq hg hg.le le_rfl]
    have : 1 - p.g1 / (p.g1 / 2) = -1 := by field_simp; norm_num
    rw [this, Real.arccos_neg_one]; ring
  · simp only [area, rectA, hd]; ring
  · simp only [area]; rw [ellipticalA_eq, hd, ellF_full hg]

/-- **C31 is false for the closed rectangle:** running full, the reported wetted perimeter leaves out the
ceiling; it is short by exactly the width. -/
theorem C31_rect_closed_perimeter (p : GP) (eps old h1 h2 : ℝ) (hg2 : 0 < p.g2) (h : 2 * p.g1 ≤ h1 + h2) :
    perimeter eps old .rectClosed p h1 h2 = 2 * (p.g1 + p.g2) - p.g2 ∧
    perimeter eps old .rectClosed p h1 h2 ≠ 2 * (p.g1 + p.g2) := by
  have e : perimeter eps old .rectClosed p h1 h2 = 2 * (p.g1 + p.g2) - p.g2 := by
    simp only [perimeter, rectPe, depth_full h]; ring
  exact ⟨e, by rw [e]; linarith⟩

/-! ### C32 -/

/-- **C32.** The area of a compound section is a continuous function of depth: no jump at either floodplain
level, at the bottom or at the top. -/
theorem C32_floodplain_continuous (p : GP) (hv : Valid .floodplain p) :
    Continuous fun h : ℝ × ℝ => area .floodplain p h.1 h.2 := by
  obtain ⟨hg, h2, h3, h4, h5, h6, h7⟩ := hv
  have e : (fun h : ℝ × ℝ => area .floodplain p h.1 h.2) = fun h : ℝ × ℝ =>
      floodF p.g2 p.g3 p.g4 p.g5 p.g6 p.g7 (min (max ((h.1 + h.2) / 2) 0) p.g1) := by
    funext h
    simp only [area]
    rw [floodplainA_eq _ _ _ _ _ _ _ _ _ hg.le h3, depth_eq]
  rw [e]
  exact (floodF_continuous _ _ _ _ _ _).comp (by fun_prop)

/-- **C32 (values).** The tiers add up: in the middle tier the area is the full lower prism plus a trapezoid
standing on its top width, in the upper tier likewise. -/
theorem C32_floodplain_tiers (p : GP) (hv : Valid .floodplain p) (y : ℝ) (h0 : 0 ≤ y) (h1 : y ≤ p.g1) :
    (p.g2 ≤ y → y ≤ p.g2 + p.g3 → area .floodplain p y y =
      p.g2 * (p.g7 + p.g5 * p.g2) + (y - p.g2) * (p.g7 + 2 * p.g5 * p.g2 + p.g6 * (y - p.g2))) ∧
    (p.g2 + p.g3 ≤ y → area .floodplain p y y =
      p.g2 * (p.g7 + p.g5 * p.g2) + p.g3 * (p.g7 + 2 * p.g5 * p.g2 + p.g6 * p.g3) +
      (y - (p.g2 + p.g3)) * (p.g7 + 2 * p.g5 * p.g2 + 2 * p.g6 * p.g3 + p.g4 * (y - (p.g2 + p.g3)))) := by
  obtain ⟨hg, h2, h3, h4, h5, h6, h7⟩ := hv
  have e : area .floodplain p y y = floodF p.g2 p.g3 p.g4 p.g5 p.g6 p.g7 y := by
    simp only [area]; rw [floodplainA_eq _ _ _ _ _ _ _ _ _ hg.le h3, depth_same h0 h1]
  rw [e, floodF_alt _ _ _ _ _ _ _ h3]
  constructor
  · intro a b
    rw [max_eq_left (by linarith), max_eq_right (by linarith)]; ring
  · intro a
    rw [max_eq_left (by linarith), max_eq_left (by linarith)]; ring

/-- **C32 (perimeter and width).** At depth `y` between empty and full the wetted perimeter is the bottom and,
twice, the slanted length of the sides below the surface, tier by tier; the width is the bottom and twice the
horizontal run of the sides. -/
theorem C32_floodplain_sides (eps old : ℝ) (p : GP) (hv : Valid .floodplain p) (y : ℝ) (h0 : 0 < y) (h1 : y ≤ p.g1) :
    perimeter eps old .floodplain p y y = p.g7 + 2 * (min y p.g2 * Real.sqrt (1 + p.g5 ^ 2)
        + min (max (y - p.g2) 0) p.g3 * Real.sqrt (1 + p.g6 ^ 2)
        + max (y - (p.g2 + p.g3)) 0 * Real.sqrt (1 + p.g4 ^ 2)) ∧
    topWidth .floodplain p y y = p.g7 + 2 * (min y p.g2 * p.g5 + min (max (y - p.g2) 0) p.g3 * p.g6
        + max (y - (p.g2 + p.g3)) 0 * p.g4) := by
  obtain ⟨hg, h2, h3, h4, h5, h6, h7⟩ := hv
  simp only [perimeter, topWidth, floodplainPe, floodplainB, depth_same h0.le h1, tiers, ind, if_pos h0]
  by_cases a : y < p.g2
  · rw [if_pos a, if_pos a, min_eq_left a.le, max_eq_right (by linarith), max_eq_right (by linarith),
      min_eq_left h3]
    constructor <;> ring
  · rw [if_neg a, if_neg a]
    have a' := not_lt.mp a
    by_cases b : y < p.g2 + p.g3
    · rw [if_pos b, if_pos b, min_eq_right a', max_eq_left (by linarith), max_eq_right (by linarith),
        min_eq_left (by linarith)]
      constructor <;> ring
    · have b' := not_lt.mp b
      rw [if_neg b, if_neg b, min_eq_right a', max_eq_left (by linarith), max_eq_left (by linarith),
        min_eq_right (by linarith)]
      constructor <;> ring

/-- **C32 (dry).** A compound section without water has no area, no wetted perimeter and no width. -/
theorem C32_floodplain_dry (eps old : ℝ) (p : GP) (hv : Valid .floodplain p) (hu hd : ℝ) (h : hu + hd ≤ 0) :
    area .floodplain p hu hd = 0 ∧ perimeter eps old .floodplain p hu hd = 0 ∧ topWidth .floodplain p hu hd = 0 := by
  obtain ⟨hg, h2, h3, h4, h5, h6, h7⟩ := hv
  have hy : depth hu hd p.g1 = 0 := by
    rw [depth_eq, max_eq_right (by linarith), min_eq_left hg.le]
  simp only [area, perimeter, topWidth, floodplainA, floodplainPe, floodplainB, hy, tiers, ind, lt_irrefl,
    if_false]
  by_cases a : 0 < p.g2
  · simp [a]
  · have e2 : p.g2 = 0 := le_antisymm (not_lt.mp a) h2
    by_cases b : 0 < p.g3
    · simp [e2, b]
    · have e3 : p.g3 = 0 := le_antisymm (not_lt.mp b) h3
      simp [e2, e3]

/-- Non-vacuous: a section with a bottom of 2 m and vertical, 1:1 and flat tiers, 1.5 m deep: the width is the
bottom and twice the run of the middle tier. -/
example : topWidth .floodplain ⟨3, 1, 1, 4, 0, 1, 2⟩ 1.5 1.5 = 3 := by
  rw [(C32_floodplain_sides 0 0 ⟨3, 1, 1, 4, 0, 1, 2⟩ (by norm_num [Valid]) 1.5 (by norm_num) (by norm_num)).2]
  norm_num

/-! ### C22: which closed orifices pass nothing -/

/-- **C22 (closed orifice, by shape).** With opening fraction 0 the computed flow area is zero for every shape
except circular and elliptical ones (exception, see `C22_closed_orifice_raises`) and floodplain (no branch). -/
theorem C22_closed_orifice_area_partial (old : ℝ) (s : Shape) (p : GP) (h_e : ℝ)
    (h1 : s ≠ .circular) (h2 : s ≠ .elliptical) (h3 : s ≠ .floodplain) :
    orificeArea old s p h_e 0 = .ok 0 := by
  have hd : depth h_e h_e 0 = 0 := by
    rw [depth_eq]; exact min_eq_right (le_max_right _ _)
  cases s <;> simp_all [orificeArea, area, rectA, triangularA, trapezoidalA, parabolicA, forceMainA]

/-- **C22 is false for circular and elliptical orifices:** closing one completely makes the step raise
`ZeroDivisionError`. -/
theorem C22_closed_orifice_raises (old : ℝ) (p : GP) (h_e : ℝ) :
    orificeArea old .circular p h_e 0 = .error .zeroDivision ∧
    orificeArea old .elliptical p h_e 0 = .error .zeroDivision := by
  simp [orificeArea]

/-- **C22 (opening partly).** For positive openings of a valid orifice the area is defined and not negative; the
upper bound is `C22_orifice_area_upper`. -/
theorem C22_orifice_area_range (old : ℝ) (s : Shape) (p : GP) (hv : Valid s p) (hs : s ≠ .floodplain)
    (h_e u : ℝ) (hu : 0 < u) : ∃ A, orificeArea old s p h_e u = .ok A ∧ 0 ≤ A := by
  have hv' : Valid s { p with g1 := p.g1 * u } := ⟨mul_pos hv.1 hu, by
    have := hv.2; cases s <;> exact this⟩
  have hne : ¬ p.g1 * u / 2 = 0 := by have := mul_pos hv.1 hu; linarith
  refine ⟨area s { p with g1 := p.g1 * u } h_e h_e, ?_, (C28_area s _ hv').1 _ _⟩
  cases s <;> simp_all [orificeArea]

/-! ### C64: the perimeter at the ends of elliptical superlinks is never recomputed -/

/-- **C64 (partial).** At superlink ends the hydraulic radius is the current area over the current wetted
perimeter: the perimeter does not depend on the previously stored value. Missing: elliptical sections. -/
theorem C64_end_perimeter_fresh_partial (eps old old' : ℝ) (s : Shape) (hs : s ≠ .elliptical) (p : GP)
    (h1 h2 : ℝ) : perimeter eps old s p h1 h2 = perimeter eps old' s p h1 h2 := by
  cases s <;> first | rfl | exact absurd rfl hs

/-- **C64 is false for elliptical sections:** the perimeter used at superlink ends is whatever was stored
before, for all depths and for ever. -/
theorem C64_elliptical_stale (eps old : ℝ) (p : GP) (h1 h2 : ℝ) :
    perimeter eps old .elliptical p h1 h2 = old := rfl

/-! ### Non-vacuity -/

/-- A valid parameter set for all shapes at once. -/
def exGP : GP := ⟨2, 1, 1, 1, 1, 1, 1⟩

example (s : Shape) : Valid s exGP := by
  cases s <;> simp [Valid, exGP]

example : area .trapezoidal exGP 1 2 = 3 / 2 * (1 + 3 / 2) := by
  have : depth 1 2 2 = 3 / 2 := by rw [depth_eq]; norm_num
  simp [area, trapezoidalA, exGP, this]

example : ¬ HasDerivAt (fun y => area .parabolic exGP y y) (topWidth .parabolic exGP 1 1) 1 := by
  rw [C29_parabolic_iff exGP ⟨by norm_num [exGP], by show (0:ℝ) < exGP.g2; norm_num [exGP]⟩ 1 (by norm_num)
    (by norm_num [exGP])]
  norm_num [exGP]

example : ¬ HasDerivAt (fun y => area .elliptical exGP y y) (topWidth .elliptical exGP (1/2) (1/2)) (1/2) := by
  rw [C29_elliptical_iff exGP ⟨by norm_num [exGP], by show (0:ℝ) < exGP.g2; norm_num [exGP]⟩ (1/2) (by norm_num)
    (by norm_num [exGP])]
  norm_num [exGP]

end Pipedream.Geometry
