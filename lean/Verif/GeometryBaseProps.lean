import Verif.GeometryBaseModel
import Verif.GeometryProps
import Verif.RetryProps
import Mathlib.MeasureTheory.Integral.IntervalIntegral.FundThmCalculus
import Mathlib.Analysis.SpecialFunctions.Integrals.Basic

/-!
# The two geometry libraries, and the wetted perimeter of an ellipse (C112, C113)
-/

namespace Pipedream.Geometry

theorem vWet_apply (h1 h2 : ℕ → ℝ) (i : ℕ) : vWet h1 h2 i = wet (h1 i) (h2 i) := by
  rfl

theorem vDepth_apply (h1 h2 g : ℕ → ℝ) (i : ℕ) : vDepth h1 h2 g i = depth (h1 i) (h2 i) (g i) := by
  simp only [vDepth, mask, vWet_apply, depth]

theorem vTheta_apply (y d : ℕ → ℝ) (i : ℕ) : vTheta y d i = circTheta (y i) (d i) := by
  simp only [vTheta, mask, circTheta]


/-- **C112 (what holds).** For arrays of any length and every shape but the compound section, the pure-Python
class computes in each element the area, perimeter (with `Elliptical.Pe_ik` for ellipses) and hydraulic radius of
the numba function; for shapes without a slot also the top width. -/
theorem C112_libraries_agree_partial (eps : ℝ) (s : Shape) (p : ℕ → GP) (h1 h2 : ℕ → ℝ) (hs : s ≠ .floodplain) :
    ∃ A Pe R B, vArea s (fun i => (p i).g1) (fun i => (p i).g2) (fun i => (p i).g3) h1 h2 = .ok A ∧
      vPerimeter eps s (fun i => (p i).g1) (fun i => (p i).g2) (fun i => (p i).g3) h1 h2 = .ok Pe ∧
      vRadius s A Pe = .ok R ∧
      vWidth s (fun i => (p i).g1) (fun i => (p i).g2) (fun i => (p i).g3) h1 h2 = .ok B ∧
      ∀ i, A i = area s (p i) (h1 i) (h2 i) ∧
        Pe i = perimeter eps (ellipticalPe (h1 i) (h2 i) (p i).g1 (p i).g2) s (p i) (h1 i) (h2 i) ∧
        R i = hydRadius (A i) (Pe i) ∧
        (s ≠ .circular → s ≠ .rectClosed → B i = topWidth s (p i) (h1 i) (h2 i)) := by
  cases s <;> simp only [ne_eq, not_true_eq_false] at hs <;>
    refine ⟨_, _, _, _, rfl, rfl, rfl, rfl, fun i => ⟨?_, ?_, rfl, fun e1 e2 => ?_⟩⟩ <;>
    first
    | exact absurd rfl e1
    | exact absurd rfl e2
    | simp only [area, vWet_apply, vDepth_apply, vTheta_apply, circularA, rectA, triangularA, trapezoidalA, parabolicA,
      ellipticalA, forceMainA, perimeter, circularPe, rectPe, triangularPe, trapezoidalPe, parabolicPe,
      ellipticalPe, forceMainPe, widePe, mask, topWidth, rectOpenB, triangularB, trapezoidalB, parabolicB,
      ellipticalB, forceMainB]
  · split_ifs <;> rfl
  · split_ifs <;> rfl
  · ring

/-- **C112, closed round sections.** The two top widths agree below the crown, and at or above it exactly if
the slot width of the table is 0.001: the pure-Python class does not read it. -/
theorem C112_circular_width_iff (p : ℕ → GP) (h1 h2 : ℕ → ℝ) (i : ℕ) (hg : 0 < (p i).g1) :
    ∃ B, vWidth .circular (fun i => (p i).g1) (fun i => (p i).g2) (fun i => (p i).g3) h1 h2 = .ok B ∧
      (B i = topWidth .circular (p i) (h1 i) (h2 i) ↔ (h1 i + h2 i) / 2 < (p i).g1 ∨ (p i).g2 = 0.001) := by
  refine ⟨_, rfl, ?_⟩
  have hw : wet (h1 i) (h2 i) < (p i).g1 ↔ (h1 i + h2 i) / 2 < (p i).g1 := by
    simp only [wet]; split_ifs with h
    · exact ⟨fun _ => h.trans hg, fun _ => hg⟩
    · rfl
  simp only [mask, vWet_apply, vTheta_apply, topWidth, circularB]
  rw [← hw]
  by_cases h : wet (h1 i) (h2 i) < (p i).g1
  · simp [h]
  · simp only [h, if_false, not_false_eq_true, if_true, false_or]
    constructor
    · intro e; exact (mul_right_cancel₀ hg.ne' e).symm
    · intro e; rw [e]

/-- **C112, closed rectangular sections.** Likewise. -/
theorem C112_rect_closed_width_iff (p : ℕ → GP) (h1 h2 : ℕ → ℝ) (i : ℕ) (hg : 0 < (p i).g1) (hb : 0 < (p i).g2) :
    ∃ B, vWidth .rectClosed (fun i => (p i).g1) (fun i => (p i).g2) (fun i => (p i).g3) h1 h2 = .ok B ∧
      (B i = topWidth .rectClosed (p i) (h1 i) (h2 i) ↔ (h1 i + h2 i) / 2 < (p i).g1 ∨ (p i).g3 = 0.001) := by
  refine ⟨_, rfl, ?_⟩
  have hw : wet (h1 i) (h2 i) < (p i).g1 ↔ (h1 i + h2 i) / 2 < (p i).g1 := by
    simp only [wet]; split_ifs with h
    · exact ⟨fun _ => h.trans hg, fun _ => hg⟩
    · rfl
  simp only [mask, vWet_apply, topWidth, rectClosedB]
  rw [← hw]
  by_cases h : wet (h1 i) (h2 i) < (p i).g1
  · simp [h]
  · simp only [h, if_false, not_false_eq_true, if_true, false_or]
    constructor
    · intro e; exact (mul_right_cancel₀ hb.ne' e).symm
    · intro e; rw [e]

/-- With the slot of the table left at 0 the constructor fills in 0.001 and the widths agree. -/
theorem C112_default_slot (s : Shape) (p : ℕ → GP) (h1 h2 : ℕ → ℝ) (i : ℕ) (hg : 0 < (p i).g1)
    (hs : s = .circular ∧ (p i).g2 = 0 ∨ s = .rectClosed ∧ (p i).g3 = 0 ∧ 0 < (p i).g2) :
    ∃ B, vWidth s (fun i => (defaultSlot s (p i)).g1) (fun i => (defaultSlot s (p i)).g2)
      (fun i => (defaultSlot s (p i)).g3) h1 h2 = .ok B ∧
      B i = topWidth s (defaultSlot s (p i)) (h1 i) (h2 i) := by
  rcases hs with ⟨rfl, h⟩ | ⟨rfl, h, hb⟩
  · obtain ⟨B, e, hB⟩ := C112_circular_width_iff (fun i => defaultSlot .circular (p i)) h1 h2 i (by
      simp only [defaultSlot]; split_ifs; exact hg)
    exact ⟨B, e, hB.mpr (Or.inr (by simp [defaultSlot, h]))⟩
  · obtain ⟨B, e, hB⟩ := C112_rect_closed_width_iff (fun i => defaultSlot .rectClosed (p i)) h1 h2 i (by
      simp only [defaultSlot]; split_ifs; exact hg) (by simp only [defaultSlot]; split_ifs; exact hb)
    exact ⟨B, e, hB.mpr (Or.inr (by simp [defaultSlot, h]))⟩

/-- **C112, refuted for compound sections.** The pure-Python class raises on every call. -/
theorem C112_floodplain_raises (eps : ℝ) (g1 g2 g3 h1 h2 A Pe : ℕ → ℝ) :
    vArea .floodplain g1 g2 g3 h1 h2 = .error .notImplemented ∧
    vPerimeter eps .floodplain g1 g2 g3 h1 h2 = .error .notImplemented ∧
    vRadius .floodplain A Pe = .error .notImplemented ∧
    vWidth .floodplain g1 g2 g3 h1 h2 = .error .notImplemented := ⟨rfl, rfl, rfl, rfl⟩

/-- A surcharged pipe of diameter 1 with a slot of 1 %: 0.001 in one library, 0.01 in the other. -/
example : ∃ B, vWidth .circular (fun _ => 1) (fun _ => 0.01) (fun _ => 0) (fun _ => 2) (fun _ => 2) = .ok B ∧
    B 0 ≠ topWidth .circular ⟨1, 0.01, 0, 0, 0, 0, 0⟩ 2 2 := by
  obtain ⟨B, e, h⟩ := C112_circular_width_iff (fun _ => ⟨1, 0.01, 0, 0, 0, 0, 0⟩) (fun _ => 2) (fun _ => 2) 0
    (by norm_num)
  refine ⟨B, e, fun c => ?_⟩
  have := h.mp c
  norm_num at this

/-! ### The wetted perimeter of an ellipse -/

theorem speed_eq {a b : ℝ} (hb : 0 < b) (t : ℝ) :
    b * Real.sqrt (1 - (1 - a ^ 2 / b ^ 2) * Real.sin t ^ 2) =
      Real.sqrt ((a * Real.sin t) ^ 2 + (b * Real.cos t) ^ 2) := by
  rw [← Real.sqrt_sq hb.le, ← Real.sqrt_mul (sq_nonneg b), Real.sqrt_sq hb.le]
  congr 1
  have h := Real.sin_sq_add_cos_sq t
  field_simp
  nlinarith [h]

theorem continuous_ell (m : ℝ) : Continuous fun t => Real.sqrt (1 - m * Real.sin t ^ 2) := by fun_prop

theorem ellipe_symm (m : ℝ) :
    ellipe m = ∫ t in (-(Real.pi / 2))..0, Real.sqrt (1 - m * Real.sin t ^ 2) := by
  unfold ellipe ellipeinc
  have := intervalIntegral.integral_comp_neg (a := 0) (b := Real.pi / 2)
    (fun t => Real.sqrt (1 - m * Real.sin t ^ 2))
  simp only [Real.sin_neg, neg_sq, neg_zero] at this
  exact this

/-- **C113.** The wetted perimeter of an elliptical section of height `g1` and width `g2` is the length of the
part of the ellipse below the water: both branches of `t ↦ (±(g2/2)·cos t, g1/2 + (g1/2)·sin t)` from the bottom
`t = -π/2` up to the (unique) `t` at the water depth. -/
theorem C113_wetted_arc (h1 h2 g1 g2 θ : ℝ) (hg : 0 < g1) (hθ : θ ∈ Set.Icc (-(Real.pi / 2)) (Real.pi / 2))
    (hy : g1 / 2 + g1 / 2 * Real.sin θ = max 0 (min ((h1 + h2) / 2) g1)) :
    ellipticalPe h1 h2 g1 g2 = 2 * ∫ t in (-(Real.pi / 2))..θ,
      Real.sqrt (deriv (fun t => g2 / 2 * Real.cos t) t ^ 2 +
        deriv (fun t => g1 / 2 + g1 / 2 * Real.sin t) t ^ 2) := by
  have hd : depth h1 h2 g1 = g1 / 2 + g1 / 2 * Real.sin θ := by
    rw [hy, depth_eq]
    rcases le_total ((h1 + h2) / 2) 0 with h | h
    · rw [max_eq_right h, min_eq_left hg.le, min_eq_left (h.trans hg.le), max_eq_left h]
    · rw [max_eq_left h, max_eq_right (le_min h hg.le)]
  have hs : (depth h1 h2 g1 - g1 / 2) / (g1 / 2) = Real.sin θ := by
    rw [hd]; field_simp; ring
  have hi : ∀ m : ℝ, ∀ u v : ℝ, IntervalIntegrable (fun t => Real.sqrt (1 - m * Real.sin t ^ 2))
    MeasureTheory.volume u v := fun m u v => (continuous_ell m).intervalIntegrable u v
  simp only [ellipticalPe, hs, Real.arcsin_sin hθ.1 hθ.2]
  rw [ellipe_symm, ellipeinc, ← mul_add, intervalIntegral.integral_add_adjacent_intervals (hi _ _ _) (hi _ _ _),
    mul_assoc, ← intervalIntegral.integral_const_mul]
  congr 1
  refine intervalIntegral.integral_congr fun t _ => ?_
  have d1 : deriv (fun t => g2 / 2 * Real.cos t) t = -(g2 / 2 * Real.sin t) := by
    rw [deriv_const_mul _ Real.differentiableAt_cos, Real.deriv_cos]; ring
  have d2 : deriv (fun t => g1 / 2 + g1 / 2 * Real.sin t) t = g1 / 2 * Real.cos t := by
    rw [deriv_const_add, deriv_const_mul _ Real.differentiableAt_sin, Real.deriv_sin]
  simp only [d1, d2, neg_sq]
  exact speed_eq (by linarith) t

/-- Such a `t` exists for every depth, and only one. -/
theorem C113_angle (h1 h2 g1 : ℝ) (hg : 0 < g1) :
    ∃! θ, θ ∈ Set.Icc (-(Real.pi / 2)) (Real.pi / 2) ∧
      g1 / 2 + g1 / 2 * Real.sin θ = max 0 (min ((h1 + h2) / 2) g1) := by
  set y := max 0 (min ((h1 + h2) / 2) g1) with hy
  have y0 : 0 ≤ y := le_max_left _ _
  have y1 : y ≤ g1 := max_le hg.le (min_le_right _ _)
  have e : Real.sin (Real.arcsin ((y - g1 / 2) / (g1 / 2))) = (y - g1 / 2) / (g1 / 2) := by
    apply Real.sin_arcsin
    · rw [le_div_iff₀ (by linarith)]; linarith
    · rw [div_le_iff₀ (by linarith)]; linarith
  refine ⟨Real.arcsin ((y - g1 / 2) / (g1 / 2)), ⟨⟨Real.neg_pi_div_two_le_arcsin _, Real.arcsin_le_pi_div_two _⟩, ?_⟩,
    fun θ ⟨hθ, h⟩ => ?_⟩
  · rw [e]; field_simp; ring
  · rw [show (y - g1 / 2) / (g1 / 2) = Real.sin θ by rw [← h]; field_simp; ring]
    exact (Real.arcsin_sin hθ.1 hθ.2).symm

theorem speed_ge (a b t : ℝ) :
    b * Real.cos t ≤ Real.sqrt ((a * Real.sin t) ^ 2 + (b * Real.cos t) ^ 2) := by
  exact Real.le_sqrt_of_sq_le (by nlinarith [sq_nonneg (a * Real.sin t)])

/-- The perimeter as an integral over the code's own angle. -/
theorem ellipticalPe_eq (h1 h2 g1 g2 : ℝ) (hg : 0 < g1) :
    ∃ θ ∈ Set.Icc (-(Real.pi / 2)) (Real.pi / 2), g1 / 2 + g1 / 2 * Real.sin θ = depth h1 h2 g1 ∧
      ellipticalPe h1 h2 g1 g2 = 2 * ∫ t in (-(Real.pi / 2))..θ,
        Real.sqrt ((g2 / 2 * Real.sin t) ^ 2 + (g1 / 2 * Real.cos t) ^ 2) := by
  obtain ⟨θ, ⟨hθ, h⟩, -⟩ := C113_angle h1 h2 g1 hg
  have hd : max 0 (min ((h1 + h2) / 2) g1) = depth h1 h2 g1 := by
    rw [depth_eq]
    rcases le_total ((h1 + h2) / 2) 0 with h | h
    · rw [max_eq_right h, min_eq_left hg.le, min_eq_left (h.trans hg.le), max_eq_left h]
    · rw [max_eq_left h, max_eq_right (le_min h hg.le)]
  refine ⟨θ, hθ, h.trans hd, ?_⟩
  rw [C113_wetted_arc h1 h2 g1 g2 θ hg hθ h]
  congr 1
  refine intervalIntegral.integral_congr fun t _ => ?_
  have d1 : deriv (fun t => g2 / 2 * Real.cos t) t = -(g2 / 2 * Real.sin t) := by
    rw [deriv_const_mul _ Real.differentiableAt_cos, Real.deriv_cos]; ring
  have d2 : deriv (fun t => g1 / 2 + g1 / 2 * Real.sin t) t = g1 / 2 * Real.cos t := by
    rw [deriv_const_add, deriv_const_mul _ Real.differentiableAt_sin, Real.deriv_sin]
  simp only [d1, d2, neg_sq]

theorem continuous_speed (a b : ℝ) :
    Continuous fun t => Real.sqrt ((a * Real.sin t) ^ 2 + (b * Real.cos t) ^ 2) := by fun_prop

/-- The wetted perimeter is at least twice the depth (the two sides reach from the bottom to the water line);
in particular it is positive in a wet section. -/
theorem C113_at_least_twice_the_depth (h1 h2 g1 g2 : ℝ) (hg : 0 < g1) :
    2 * depth h1 h2 g1 ≤ ellipticalPe h1 h2 g1 g2 := by
  obtain ⟨θ, hθ, hd, e⟩ := ellipticalPe_eq h1 h2 g1 g2 hg
  rw [e, ← hd]
  have hc : ∫ t in (-(Real.pi / 2))..θ, g1 / 2 * Real.cos t = g1 / 2 + g1 / 2 * Real.sin θ := by
    rw [intervalIntegral.integral_const_mul, integral_cos]
    simp; ring
  rw [← hc]
  refine mul_le_mul_of_nonneg_left ?_ (by norm_num)
  refine intervalIntegral.integral_mono_on hθ.1 ((by fun_prop : Continuous _).intervalIntegrable _ _)
    ((continuous_speed _ _).intervalIntegrable _ _) fun t _ => ?_
  exact speed_ge _ _ _

/-- A dry ellipse has no wetted perimeter. -/
theorem C113_dry (h1 h2 g1 g2 : ℝ) (hg : 0 < g1) (h : h1 + h2 ≤ 0) : ellipticalPe h1 h2 g1 g2 = 0 := by
  have hp := Real.pi_pos
  rw [C113_wetted_arc h1 h2 g1 g2 (-(Real.pi / 2)) hg ⟨le_rfl, by linarith⟩ ?_]
  · simp
  · rw [Real.sin_neg, Real.sin_pi_div_two, max_eq_left]
    · ring
    · exact (min_le_left _ _).trans (by linarith)

/-- The wetted perimeter does not decrease with depth. -/
theorem C113_monotone {h1 h2 h1' h2' g1 g2 : ℝ} (hg : 0 < g1) (h : h1 + h2 ≤ h1' + h2') :
    ellipticalPe h1 h2 g1 g2 ≤ ellipticalPe h1' h2' g1 g2 := by
  obtain ⟨θ, hθ, hd, e⟩ := ellipticalPe_eq h1 h2 g1 g2 hg
  obtain ⟨θ', hθ', hd', e'⟩ := ellipticalPe_eq h1' h2' g1 g2 hg
  have hdd : depth h1 h2 g1 ≤ depth h1' h2' g1 := by
    rw [depth_eq, depth_eq]
    exact min_le_min (max_le_max (by linarith) le_rfl) le_rfl
  have hsin : Real.sin θ ≤ Real.sin θ' := by
    rw [← hd, ← hd'] at hdd
    have : 0 < g1 / 2 := by linarith
    nlinarith
  have hle : θ ≤ θ' := (Real.strictMonoOn_sin.le_iff_le hθ hθ').mp hsin
  rw [e, e', ← intervalIntegral.integral_add_adjacent_intervals
    ((continuous_speed (g2 / 2) (g1 / 2)).intervalIntegrable _ θ) ((continuous_speed _ _).intervalIntegrable θ θ')]
  have : 0 ≤ ∫ t in θ..θ', Real.sqrt ((g2 / 2 * Real.sin t) ^ 2 + (g1 / 2 * Real.cos t) ^ 2) :=
    intervalIntegral.integral_nonneg hle fun _ _ => Real.sqrt_nonneg _
  linarith

/-- An ellipse of equal height and width is a circle: same area, same wetted perimeter. -/
theorem C113_circle (h1 h2 g : ℝ) (hg : 0 < g) :
    ellipticalPe h1 h2 g g = circularPe h1 h2 g ∧ ellipticalA h1 h2 g g = circularA h1 h2 g := by
  obtain ⟨θ, hθ, hd, e⟩ := ellipticalPe_eq h1 h2 g g hg
  have hs : ∀ t, Real.sqrt ((g / 2 * Real.sin t) ^ 2 + (g / 2 * Real.cos t) ^ 2) = g / 2 := by
    intro t
    rw [show (g / 2 * Real.sin t) ^ 2 + (g / 2 * Real.cos t) ^ 2 = (g / 2) ^ 2 * (Real.sin t ^ 2 + Real.cos t ^ 2) by
      ring, Real.sin_sq_add_cos_sq, mul_one, Real.sqrt_sq (by linarith)]
  have hth : circTheta (depth h1 h2 g) g = Real.pi / 2 + θ := by
    rw [circTheta_eq hg (depth_nonneg h1 h2 hg.le) (depth_le h1 h2 g), ← hd]
    rw [show 1 - (g / 2 + g / 2 * Real.sin θ) / (g / 2) = -Real.sin θ by field_simp; ring, Real.arccos_neg,
      Real.arccos_eq_pi_div_two_sub_arcsin, Real.arcsin_sin hθ.1 hθ.2]
    ring
  have hsn : Real.arcsin ((depth h1 h2 g - g / 2) / (g / 2)) = θ := by
    rw [← hd, show (g / 2 + g / 2 * Real.sin θ - g / 2) / (g / 2) = Real.sin θ by field_simp; ring,
      Real.arcsin_sin hθ.1 hθ.2]
  constructor
  · rw [e]
    simp only [hs, circularPe, hth]
    rw [intervalIntegral.integral_const]
    simp; ring
  · simp only [ellipticalA, circularA, hsn, hth]
    rw [show Real.pi / 2 + θ = θ + Real.pi / 2 by ring, Real.cos_add_pi_div_two, Real.sin_add_pi_div_two]
    ring

/-- Half full, twice as wide as high: the water line is at `t = 0`. -/
example : ellipticalPe 1 1 2 4 = 2 * ∫ t in (-(Real.pi / 2))..0,
    Real.sqrt (deriv (fun t => (4 : ℝ) / 2 * Real.cos t) t ^ 2 +
      deriv (fun t => (2 : ℝ) / 2 + 2 / 2 * Real.sin t) t ^ 2) := by
  have := Real.pi_pos
  exact C113_wetted_arc 1 1 2 4 0 (by norm_num) ⟨by linarith, by linarith⟩ (by norm_num)

end Pipedream.Geometry

namespace Pipedream.Step

open Pipedream.Geometry

/-- `handle_elliptical_perimeter` — nsuperlink.py 1688–1696: the perimeter function of a plan. -/
noncomputable def ellOf (p : GP) (h1 h2 : ℝ) : ℝ := ellipticalPe h1 h2 p.g1 p.g2

/-- With the code's own perimeter function every wettable shape, ellipses included, is usable, so the theorems
about sound models apply to it without an assumption about ellipses. -/
theorem usable_ellOf {s : Shape} {p : GP} (hw : Wettable s p) (md : ℝ) :
    (Section.regular s p).Usable ellOf md := by
  refine ⟨hw, fun _ h1 h2 h => ?_⟩
  have := C113_at_least_twice_the_depth h1 h2 p.g1 p.g2 hw.1.1
  have hd := depth_pos (h1 := h1) (h2 := h2) hw.1.1 h
  unfold ellOf
  linarith

theorem ellOf_symm (p : GP) (h1 h2 : ℝ) : ellOf p h1 h2 = ellOf p h2 h1 := by
  simp only [ellOf, ellipticalPe, depth_eq, add_comm h1 h2]

/-- A sound model with an elliptical pipe of height 2 and width 3. -/
example : Sound reModel { rePlan with ell := ellOf, sec := fun _ => .regular .elliptical ⟨2, 3, 0, 0, 0, 0, 0⟩ } := by
  have h := reSound
  exact ⟨h.cons, h.g_pos, h.md_pos, h.n_pos, h.dx_pos, h.C_nonneg, h.AS_nonneg, h.dxu, h.dxd, h.Cu, h.Cd, h.b_p,
    h.friction, h.eps_pos, fun _ _ => usable_ellOf (by simp [Wettable, Valid]) _, h.storage, h.damp⟩

end Pipedream.Step
