import Verif.SectionIntegralProps
import Verif.SectionContinuityProps
import Mathlib.Analysis.SpecialFunctions.Arsinh

/-!
# C212: regular sections have the area and the wetted perimeter of their shapes

Specification: a section is described by its width at every height (`chord`). The flow area is the integral of that width
up to the water level; the wetted perimeter is the bottom plus the arc length of the two sides.
-/

namespace Pipedream.Geometry

open Set MeasureTheory

/-! ### Specification -/

/-- Width of the section at height `z` above the invert, from the elementary description of each shape: circle of diameter
`g1`, rectangle of width `g2`, triangle and trapezoid with side slope, parabola with width `g2` at height `g1`, ellipse with
axes `g1` and `g2`, three trapezoids on top of one another. -/
noncomputable def chord (s : Shape) (p : GP) (z : ℝ) : ℝ :=
  match s with
  | .circular => 2 * Real.sqrt ((p.g1 / 2) ^ 2 - (z - p.g1 / 2) ^ 2)
  | .rectClosed => p.g2
  | .rectOpen => p.g2
  | .triangular => 2 * p.g2 * z
  | .trapezoidal => p.g2 + 2 * p.g3 * z
  | .parabolic => p.g2 * Real.sqrt (z / p.g1)
  | .elliptical => p.g2 * Real.sqrt (1 - ((z - p.g1 / 2) / (p.g1 / 2)) ^ 2)
  | .wide => p.g2
  | .forceMain => 2 * Real.sqrt ((p.g1 / 2) ^ 2 - (z - p.g1 / 2) ^ 2)
  | .floodplain => p.g7 + 2 * p.g5 * min z p.g2 + 2 * p.g6 * min (max (z - p.g2) 0) p.g3
      + 2 * p.g4 * max (z - (p.g2 + p.g3)) 0

/-- Water level in a link: the mean of the two depths, not below the invert and not above the crown. -/
noncomputable def level (h1 h2 ymax : ℝ) : ℝ := min (max ((h1 + h2) / 2) 0) ymax

/-- Length of the bottom and of the two sides up to the height `y`. -/
noncomputable def wettedSides (width : ℝ → ℝ) (y : ℝ) : ℝ :=
  width 0 + 2 * ∫ z in (0 : ℝ)..y, Real.sqrt (1 + (deriv width z / 2) ^ 2)

/-! ### Glue -/

/-- The fundamental theorem for a function that grows. -/
theorem int_of_deriv {F f : ℝ → ℝ} {y : ℝ} (h0 : 0 ≤ y) (hc : Continuous F)
    (hd : ∀ z, 0 < z → z < y → HasDerivAt F (f z) z) (hp : ∀ z, 0 < z → z < y → 0 ≤ f z) :
    ∫ z in (0 : ℝ)..y, f z = F y - F 0 := by
  refine intervalIntegral.integral_eq_sub_of_hasDerivAt_of_le h0 hc.continuousOn (fun z hz => hd z hz.1 hz.2) ?_
  refine intervalIntegral.intervalIntegrable_deriv_of_nonneg (g := F) hc.continuousOn (fun z hz => ?_) fun z hz => ?_
  · rw [min_eq_left h0, max_eq_right h0] at hz; exact hd z hz.1 hz.2
  · rw [min_eq_left h0, max_eq_right h0] at hz; exact hp z hz.1 hz.2

theorem circ_chord {d : ℝ} (hd : 0 < d) (z : ℝ) :
    2 * Real.sqrt ((d / 2) ^ 2 - (z - d / 2) ^ 2) = 2 * (d / 2) * Real.sin (Real.arccos (1 - z / (d / 2))) := by
  rw [Real.sin_arccos, show (d / 2) ^ 2 - (z - d / 2) ^ 2 = (d / 2) ^ 2 * (1 - (1 - z / (d / 2)) ^ 2) by
    field_simp; ring, Real.sqrt_mul (by positivity), Real.sqrt_sq (by positivity)]
  ring

theorem circF_continuous (d : ℝ) : Continuous (circF d) := by
  unfold circF
  have := Real.continuous_arccos
  fun_prop

theorem ellF_continuous (g1 g2 : ℝ) : Continuous (ellF g1 g2) := by
  unfold ellF
  have := Real.continuous_arcsin
  fun_prop

/-! ### Area -/

/-- **C212 (area).** For circular, rectangular, triangular, trapezoidal, elliptical, wide and compound sections the flow
area is the area of the part of the shape below the water level. -/
theorem C212_area (s : Shape) (p : GP) (hv : Valid s p) (hp : s ≠ .parabolic) (hf : s ≠ .forceMain) (h1 h2 : ℝ) :
    area s p h1 h2 = ∫ z in (0 : ℝ)..level h1 h2 p.g1, chord s p z := by
  rw [show level h1 h2 p.g1 = depth h1 h2 p.g1 from (depth_eq _ _ _).symm]
  obtain ⟨hg, hv⟩ := hv
  have d0 := depth_nonneg h1 h2 hg.le
  have d1 := depth_le h1 h2 p.g1
  cases s
  · rw [area, circularA_eq _ _ hg, int_of_deriv d0 (circF_continuous p.g1), circF_zero, sub_zero]
    · intro z a b
      rw [chord, circ_chord hg]
      exact circF_hasDerivAt a (b.trans_le d1)
    · intro z a b; exact mul_nonneg two_pos.le (Real.sqrt_nonneg _)
  · simp [area, rectA, chord]
  · simp [area, rectA, chord]
  · have hv : 0 < p.g2 := hv
    rw [int_of_deriv (F := fun y => p.g2 * y ^ 2) d0 (by fun_prop)]
    · simp [area, triangularA]
    · intro z a b
      exact (((hasDerivAt_id z).pow 2).const_mul p.g2).congr_deriv (by simp [chord]; ring)
    · intro z a b; simp only [chord]; positivity
  · obtain ⟨v2, v3⟩ := hv
    rw [int_of_deriv (F := fun y => y * (p.g2 + p.g3 * y)) d0 (by fun_prop)]
    · simp [area, trapezoidalA]
    · intro z a b
      exact ((hasDerivAt_id z).mul (((hasDerivAt_id z).const_mul p.g3).const_add p.g2)).congr_deriv (by
        simp [chord]; ring)
    · intro z a b; simp only [chord]; positivity
  · exact absurd rfl hp
  · have hv : 0 < p.g2 := hv
    rw [area, ellipticalA_eq, int_of_deriv d0 (ellF_continuous p.g1 p.g2), ellF_zero hg, sub_zero]
    · intro z a b
      rw [chord, ← Real.cos_arcsin]
      exact ellF_hasDerivAt a (b.trans_le d1)
    · intro z a b; exact mul_nonneg hv.le (Real.sqrt_nonneg _)
  · simp [area, rectA, chord]
  · exact absurd rfl hf
  · obtain ⟨v2, v3, v4, v5, v6, v7⟩ := hv
    rw [area, floodplainA_eq _ _ _ _ _ _ _ _ _ hg.le v3,
      int_of_deriv d0 (floodF_continuous p.g2 p.g3 p.g4 p.g5 p.g6 p.g7), floodF_zero v2 v3, sub_zero]
    · intro z a b
      refine (floodF_hasDerivAt _ _ _ _ _ _ z v3).congr_deriv ?_
      simp only [chord]
      rcases le_total z p.g2 with c | c
      · rw [min_eq_left c, max_eq_right (sub_nonpos.mpr c), min_eq_left v3,
          max_eq_right (by linarith : z - (p.g2 + p.g3) ≤ 0)]; ring
      · rcases le_total z (p.g2 + p.g3) with e | e
        · rw [min_eq_right c, max_eq_left (sub_nonneg.mpr c), min_eq_left (by linarith : z - p.g2 ≤ p.g3),
            max_eq_right (by linarith : z - (p.g2 + p.g3) ≤ 0)]; ring
        · rw [min_eq_right c, max_eq_left (sub_nonneg.mpr c), min_eq_right (by linarith : p.g3 ≤ z - p.g2),
            max_eq_left (sub_nonneg.mpr e)]; ring
    · intro z a b
      simp only [chord]
      have : 0 ≤ min z p.g2 := le_min a.le v2
      have : 0 ≤ min (max (z - p.g2) 0) p.g3 := le_min (le_max_right _ _) v3
      positivity

/-- **C212 (force main).** A force main is always full: its area is that of the whole circle, whatever the depths. -/
theorem C212_force_main (p : GP) (hg : 0 < p.g1) (h1 h2 : ℝ) :
    area .forceMain p h1 h2 = ∫ z in (0 : ℝ)..p.g1, chord .forceMain p z := by
  rw [int_of_deriv (F := circF p.g1) hg.le (circF_continuous p.g1), circF_zero, sub_zero, circF_full hg]
  · rfl
  · intro z a b
    rw [chord, circ_chord hg]
    exact circF_hasDerivAt a b
  · intro z a b; exact mul_nonneg two_pos.le (Real.sqrt_nonneg _)

/-- The area below the level `y` of a parabola of width `g2` at the height `g1`. -/
theorem parabola_area {g1 g2 y : ℝ} (hg : 0 < g1) (hb : 0 < g2) (h0 : 0 ≤ y) :
    ∫ z in (0 : ℝ)..y, g2 * Real.sqrt (z / g1) = 2 * g2 * y / 3 * Real.sqrt (y / g1) := by
  rw [int_of_deriv (F := fun y => 2 * g2 * y / 3 * Real.sqrt (y / g1)) h0 (by fun_prop)]
  · simp
  · intro z a b
    have hz : 0 < z / g1 := div_pos a hg
    have hs := (((hasDerivAt_id z).div_const g1).sqrt (by simpa using hz.ne'))
    have := (((hasDerivAt_id z).const_mul (2 * g2)).div_const 3).mul hs
    refine this.congr_deriv ?_
    have hq : Real.sqrt (z / g1) ≠ 0 := (Real.sqrt_pos.mpr hz).ne'
    have hq2 : Real.sqrt (z / g1) ^ 2 * g1 = z := by rw [Real.sq_sqrt hz.le]; field_simp
    simp only [id]
    field_simp
    generalize Real.sqrt (z / g1) = q at *
    nlinarith [hq2]
  · intro z a b; positivity

/-- **C212 fails for parabolic sections:** the area returned is that of the water divided by the square root of the filling
ratio, so it is right only for a section that is empty or full and too large in between. -/
theorem C212_parabolic_area (p : GP) (hv : Valid .parabolic p) (h1 h2 : ℝ) :
    area .parabolic p h1 h2 * Real.sqrt (level h1 h2 p.g1 / p.g1)
      = (∫ z in (0 : ℝ)..level h1 h2 p.g1, chord .parabolic p z) ∧
    (0 < h1 + h2 → h1 + h2 < 2 * p.g1 →
      (∫ z in (0 : ℝ)..level h1 h2 p.g1, chord .parabolic p z) < area .parabolic p h1 h2) := by
  obtain ⟨hg, hb⟩ := hv
  have hb : 0 < p.g2 := hb
  have e : level h1 h2 p.g1 = depth h1 h2 p.g1 := (depth_eq _ _ _).symm
  have d0 := depth_nonneg h1 h2 hg.le
  have key : area .parabolic p h1 h2 * Real.sqrt (level h1 h2 p.g1 / p.g1)
      = (∫ z in (0 : ℝ)..level h1 h2 p.g1, chord .parabolic p z) := by
    simp only [chord, e]
    rw [parabola_area hg hb d0]; rfl
  refine ⟨key, fun a b => ?_⟩
  have e2 : level h1 h2 p.g1 = (h1 + h2) / 2 := by
    rw [level, max_eq_left (by linarith), min_eq_left (by linarith)]
  have hpos : 0 < area .parabolic p h1 h2 := by
    have : depth h1 h2 p.g1 = (h1 + h2) / 2 := by rw [← e, e2]
    simp only [area, parabolicA, this]
    have : 0 < (h1 + h2) / 2 := by linarith
    positivity
  have hlt : Real.sqrt (level h1 h2 p.g1 / p.g1) < 1 := by
    rw [Real.sqrt_lt' one_pos, one_pow, div_lt_one hg, e2]; linarith
  rw [← key]
  nlinarith

/-! ### Perimeter -/

/-- A side of constant slope. -/
theorem int_piece {f : ℝ → ℝ} {a b c : ℝ} (hab : a ≤ b) (h : ∀ z, a < z → z < b → f z = c) :
    (∫ z in a..b, f z) = (b - a) * c ∧ IntervalIntegrable f volume a b := by
  have e : EqOn (fun _ => c) f (uIoo a b) := fun z hz => by
    rw [uIoo_of_le hab] at hz; exact (h z hz.1 hz.2).symm
  refine ⟨?_, (intervalIntegrable_const (c := c)).congr_uIoo e⟩
  rw [← intervalIntegral.integral_congr_uIoo e]; simp

/-- A straight piece of a side. -/
theorem slope_of_line {w : ℝ → ℝ} {a b m z k : ℝ} (h : ∀ z, a < z → z < b → w z = k + 2 * m * z) (ha : a < z) (hb : z < b) :
    Real.sqrt (1 + (deriv w z / 2) ^ 2) = Real.sqrt (1 + m ^ 2) := by
  have e : w =ᶠ[nhds z] fun z => k + 2 * m * z := by
    filter_upwards [Ioo_mem_nhds ha hb] with u hu using h u hu.1 hu.2
  have hd : HasDerivAt (fun z : ℝ => k + 2 * m * z) (2 * m) z := by
    simpa using ((hasDerivAt_id z).const_mul (2 * m)).const_add k
  rw [e.deriv_eq, hd.deriv, mul_div_cancel_left₀ m two_ne_zero]

theorem sides_straight {w : ℝ → ℝ} {k m y : ℝ} (h0 : 0 ≤ y) (h : ∀ z, w z = k + 2 * m * z) :
    wettedSides w y = k + 2 * y * Real.sqrt (1 + m ^ 2) := by
  unfold wettedSides
  rw [(int_piece h0 fun z a b => slope_of_line (a := 0) (b := y) (fun u _ _ => h u) a b).1, h 0]
  ring

theorem circle_slope {d z : ℝ} (h0 : 0 < z) (h1 : z < d) :
    HasDerivAt (fun y => d / 2 * Real.arccos (1 - y / (d / 2)))
      (Real.sqrt (1 + (deriv (fun z => 2 * Real.sqrt ((d / 2) ^ 2 - (z - d / 2) ^ 2)) z / 2) ^ 2)) z := by
  have hd : 0 < d := h0.trans h1
  have hr : (0:ℝ) < d / 2 := by linarith
  have hq : 0 < (d / 2) ^ 2 - (z - d / 2) ^ 2 := by nlinarith
  have hin : HasDerivAt (fun z : ℝ => (d / 2) ^ 2 - (z - d / 2) ^ 2) (-(2 * (z - d / 2))) z := by
    have := (((hasDerivAt_id z).sub_const (d / 2)).pow 2).const_sub ((d / 2) ^ 2)
    exact this.congr_deriv (by simp)
  have hw := (hin.sqrt hq.ne').const_mul 2
  rw [hw.deriv]
  set c : ℝ := 1 - z / (d / 2) with hc
  have hc1 : c < 1 := by have := div_pos h0 hr; linarith
  have hc2 : -1 < c := by
    have : z / (d / 2) < 2 := by rw [div_lt_iff₀ hr]; linarith
    linarith
  have hin2 : HasDerivAt (fun y : ℝ => 1 - y / (d / 2)) (-(1 / (d / 2))) z := by
    simpa using ((hasDerivAt_id z).div_const (d / 2)).const_sub 1
  have hac : HasDerivAt (fun y : ℝ => Real.arccos (1 - y / (d / 2)))
      (-(1 / Real.sqrt (1 - c ^ 2)) * (-(1 / (d / 2)))) z := by
    have := HasDerivAt.comp (h₂ := Real.arccos) z (Real.hasDerivAt_arccos hc2.ne' hc1.ne) hin2
    exact this
  refine (hac.const_mul (d / 2)).congr_deriv ?_
  have hcq : 0 < 1 - c ^ 2 := by nlinarith
  have e : (d / 2) ^ 2 - (z - d / 2) ^ 2 = (d / 2) ^ 2 * (1 - c ^ 2) := by rw [hc]; field_simp; ring
  have e2 : z - d / 2 = -(d / 2 * c) := by rw [hc]; field_simp; ring
  rw [e, Real.sqrt_mul (by positivity), Real.sqrt_sq hr.le, e2]
  have hs := Real.sq_sqrt hcq.le
  have hsp := Real.sqrt_pos.mpr hcq
  generalize Real.sqrt (1 - c ^ 2) = q at *
  rw [show (1:ℝ) + (2 * (-(2 * -(d / 2 * c)) / (2 * (d / 2 * q))) / 2) ^ 2 = (1 / q) ^ 2 by
    field_simp; linarith, Real.sqrt_sq (by positivity)]
  field_simp

/-- **C212 (perimeter).** For circular, rectangular, triangular, trapezoidal and (wet) compound sections the wetted perimeter
is the width of the bottom plus the arc length of the two sides up to the water level. -/
theorem C212_perimeter (eps old : ℝ) (s : Shape) (p : GP) (hv : Valid s p) (h1 h2 : ℝ)
    (hs : s = .circular ∨ s = .rectClosed ∨ s = .rectOpen ∨ s = .triangular ∨ s = .trapezoidal
      ∨ (s = .floodplain ∧ 0 < h1 + h2)) :
    perimeter eps old s p h1 h2 = wettedSides (chord s p) (level h1 h2 p.g1) := by
  rw [show level h1 h2 p.g1 = depth h1 h2 p.g1 from (depth_eq _ _ _).symm]
  obtain ⟨hg, hv⟩ := hv
  have d0 := depth_nonneg h1 h2 hg.le
  have d1 := depth_le h1 h2 p.g1
  rcases hs with rfl | rfl | rfl | rfl | rfl | ⟨rfl, hw⟩
  · rw [perimeter, circularPe, circTheta_eq hg d0 d1]
    unfold wettedSides
    have e := int_of_deriv (F := fun y => p.g1 / 2 * Real.arccos (1 - y / (p.g1 / 2))) (f := fun z =>
      Real.sqrt (1 + (deriv (fun z => 2 * Real.sqrt ((p.g1 / 2) ^ 2 - (z - p.g1 / 2) ^ 2)) z / 2) ^ 2)) d0
      (by have := Real.continuous_arccos; fun_prop)
      (fun z a b => circle_slope a (b.trans_le d1)) fun z _ _ => Real.sqrt_nonneg _
    have e0 : chord .circular p 0 = 0 := by simp [chord]
    have e1 : chord .circular p = fun z => 2 * Real.sqrt ((p.g1 / 2) ^ 2 - (z - p.g1 / 2) ^ 2) := rfl
    rw [e0, e1, e]
    simp; ring
  · rw [sides_straight (k := p.g2) (m := 0) d0 fun z => by simp [chord]]
    simp [perimeter, rectPe]
  · rw [sides_straight (k := p.g2) (m := 0) d0 fun z => by simp [chord]]
    simp [perimeter, rectPe]
  · rw [sides_straight (k := 0) (m := p.g2) d0 fun z => by simp [chord]]
    simp [perimeter, triangularPe]
  · rw [sides_straight (k := p.g2) (m := p.g3) d0 fun z => by simp only [chord]]
    simp [perimeter, trapezoidalPe]
  · obtain ⟨v2, v3, v4, v5, v6, v7⟩ := hv
    have hy : 0 < depth h1 h2 p.g1 := by
      rw [depth_eq]; exact lt_min (lt_max_of_lt_left (by linarith)) hg
    rw [perimeter, floodplainPe_eq _ _ v3]
    generalize depth h1 h2 p.g1 = y at *
    have hi : ind y = 1 := by simp [ind, hy]
    have c0 : chord .floodplain p 0 = p.g7 := by
      simp only [chord]
      rw [min_eq_left v2, max_eq_right (by linarith : (0:ℝ) - p.g2 ≤ 0), min_eq_left v3,
        max_eq_right (by linarith : (0:ℝ) - (p.g2 + p.g3) ≤ 0)]; ring
    have cl : ∀ z, -1 < z → z < p.g2 → chord .floodplain p z = p.g7 + 2 * p.g5 * z := by
      intro z _ c
      simp only [chord]
      rw [min_eq_left c.le, max_eq_right (by linarith : z - p.g2 ≤ 0), min_eq_left v3,
        max_eq_right (by linarith : z - (p.g2 + p.g3) ≤ 0)]; ring
    have cm : ∀ z, p.g2 < z → z < p.g2 + p.g3 →
        chord .floodplain p z = (p.g7 + 2 * p.g5 * p.g2 - 2 * p.g6 * p.g2) + 2 * p.g6 * z := by
      intro z b c
      simp only [chord]
      rw [min_eq_right b.le, max_eq_left (by linarith : 0 ≤ z - p.g2), min_eq_left (by linarith : z - p.g2 ≤ p.g3),
        max_eq_right (by linarith : z - (p.g2 + p.g3) ≤ 0)]; ring
    have ch : ∀ z, p.g2 + p.g3 < z → z < y + 1 → chord .floodplain p z
        = (p.g7 + 2 * p.g5 * p.g2 + 2 * p.g6 * p.g3 - 2 * p.g4 * (p.g2 + p.g3)) + 2 * p.g4 * z := by
      intro z b _
      simp only [chord]
      rw [min_eq_right (by linarith : p.g2 ≤ z), max_eq_left (by linarith : 0 ≤ z - p.g2),
        min_eq_right (by linarith : p.g3 ≤ z - p.g2), max_eq_left (by linarith : 0 ≤ z - (p.g2 + p.g3))]; ring
    have i1 := int_piece (a := 0) (b := min y p.g2) (le_min d0 v2) fun z a b =>
      slope_of_line cl (by linarith) (b.trans_le (min_le_right _ _))
    have i2 := int_piece (a := min y p.g2) (b := min y (p.g2 + p.g3)) (min_le_min_left y (by linarith)) fun z a b =>
      slope_of_line cm (by
        rcases min_lt_iff.mp a with c | c
        · exact absurd (b.trans_le (min_le_left _ _)) (not_lt.mpr c.le)
        · exact c) (b.trans_le (min_le_right _ _))
    have i3 := int_piece (a := min y (p.g2 + p.g3)) (b := y) (min_le_left _ _) fun z a b =>
      slope_of_line ch (by
        rcases min_lt_iff.mp a with c | c
        · exact absurd b (not_lt.mpr c.le)
        · exact c) (by linarith)
    unfold wettedSides
    rw [← intervalIntegral.integral_add_adjacent_intervals (i1.2.trans i2.2) i3.2,
      ← intervalIntegral.integral_add_adjacent_intervals i1.2 i2.2, i1.1, i2.1, i3.1, c0, hi]
    have m1 : min (max (y - p.g2) 0) p.g3 = min y (p.g2 + p.g3) - min y p.g2 := by
      rcases le_total y p.g2 with c | c
      · rw [max_eq_right (by linarith), min_eq_left v3, min_eq_left c, min_eq_left (by linarith)]; ring
      · rw [max_eq_left (by linarith), min_eq_right c]
        rcases le_total y (p.g2 + p.g3) with e | e
        · rw [min_eq_left (by linarith), min_eq_left e]
        · rw [min_eq_right (by linarith), min_eq_right e]; ring
    have m2 : max (y - (p.g2 + p.g3)) 0 = y - min y (p.g2 + p.g3) := by
      rcases le_total y (p.g2 + p.g3) with e | e
      · rw [max_eq_right (by linarith), min_eq_left e]; ring
      · rw [max_eq_left (by linarith), min_eq_right e]
    rw [m1, m2]; ring

/-- Arc length of the parabola `y (2 ξ / b)²` of height `y` over the width `b`. -/
theorem parabola_length {b y : ℝ} (hb : 0 < b) (hy : 0 < y) :
    ∫ ξ in -(b / 2)..b / 2, Real.sqrt (1 + (8 * y / b ^ 2 * ξ) ^ 2)
      = b / 2 * (Real.sqrt (1 + (4 * y / b) ^ 2)
        + 1 / (4 * y / b) * Real.log (4 * y / b + Real.sqrt (1 + (4 * y / b) ^ 2))) := by
  set k : ℝ := 8 * y / b ^ 2 with hk
  have hkp : 0 < k := by positivity
  have hd : ∀ ξ ∈ uIcc (-(b / 2)) (b / 2), HasDerivAt
      (fun ξ => (ξ * Real.sqrt (1 + (k * ξ) ^ 2) + Real.arsinh (k * ξ) / k) / 2) (Real.sqrt (1 + (k * ξ) ^ 2)) ξ := by
    intro ξ _
    have hp : 0 < 1 + (k * ξ) ^ 2 := by positivity
    have h1 : HasDerivAt (fun ξ : ℝ => k * ξ) k ξ := by simpa using (hasDerivAt_id ξ).const_mul k
    have h2 : HasDerivAt (fun ξ : ℝ => 1 + (k * ξ) ^ 2) (2 * (k * ξ) * k) ξ :=
      ((h1.pow 2).const_add 1).congr_deriv (by simp)
    have h3 := (hasDerivAt_id ξ).mul (h2.sqrt hp.ne')
    have h4 := (((Real.hasDerivAt_arsinh (k * ξ)).comp ξ h1).div_const k)
    refine ((h3.add h4).div_const 2).congr_deriv ?_
    have hs := Real.sq_sqrt hp.le
    have hsp := Real.sqrt_pos.mpr hp
    simp only [id]
    generalize Real.sqrt (1 + (k * ξ) ^ 2) = q at *
    field_simp
    linarith
  rw [intervalIntegral.integral_eq_sub_of_hasDerivAt hd
    (Continuous.intervalIntegrable (by fun_prop) _ _)]
  have e1 : k * (b / 2) = 4 * y / b := by rw [hk]; field_simp; ring
  have e2 : k * -(b / 2) = -(4 * y / b) := by rw [mul_neg, e1]
  rw [e1, e2, Real.arsinh_neg, neg_sq, ← Real.arsinh]
  have e3 : k = 2 * (4 * y / b) / b := by rw [hk]; field_simp; ring
  have hx : 0 < 4 * y / b := by positivity
  rw [e3]
  generalize 4 * y / b = x at *
  field_simp
  ring

/-- **C212 fails for parabolic sections (perimeter):** what is returned is the arc length of a parabola as high as the
water is deep but as wide as the full section, whereas the water wets the part of the bed `g1 (2 ξ / g2)²` below its surface,
which is shorter unless the section is full. -/
theorem C212_parabolic_perimeter (eps old : ℝ) (p : GP) (hv : Valid .parabolic p) (h1 h2 : ℝ) (hw : 0 < h1 + h2) :
    let y := level h1 h2 p.g1
    let b := p.g2 * Real.sqrt (y / p.g1)
    let true_length := ∫ ξ in -(b / 2)..b / 2, Real.sqrt (1 + (8 * p.g1 / p.g2 ^ 2 * ξ) ^ 2)
    perimeter eps old .parabolic p h1 h2
      = (∫ ξ in -(p.g2 / 2)..p.g2 / 2, Real.sqrt (1 + (8 * y / p.g2 ^ 2 * ξ) ^ 2)) ∧
    (2 * p.g1 ≤ h1 + h2 → perimeter eps old .parabolic p h1 h2 = true_length) ∧
    (h1 + h2 < 2 * p.g1 → true_length < perimeter eps old .parabolic p h1 h2) := by
  intro y b tl
  obtain ⟨hg, hb⟩ := hv
  have hb : 0 < p.g2 := hb
  have hy : 0 < y := lt_min (lt_max_of_lt_left (by linarith)) hg
  have hyle : y ≤ p.g1 := min_le_right _ _
  have hP : perimeter eps old .parabolic p h1 h2
      = (∫ ξ in -(p.g2 / 2)..p.g2 / 2, Real.sqrt (1 + (8 * y / p.g2 ^ 2 * ξ) ^ 2)) := by
    rw [parabola_length hb hy]
    have e : (if (if (h1 + h2) / 2 ≤ 0 then eps else (h1 + h2) / 2) > p.g1 then p.g1
        else (if (h1 + h2) / 2 ≤ 0 then eps else (h1 + h2) / 2)) = y := by
      have c : ¬ (h1 + h2) / 2 ≤ 0 := by linarith
      simp only [if_neg c]
      show _ = min (max ((h1 + h2) / 2) 0) p.g1
      rw [max_eq_left (by linarith)]
      split_ifs with c
      · rw [min_eq_right (by linarith)]
      · rw [min_eq_left (by linarith)]
    simp only [perimeter, parabolicPe]
    rw [e]
  set t : ℝ := Real.sqrt (y / p.g1) with ht
  have hq : 0 < y / p.g1 := div_pos hy hg
  have htp : 0 < t := Real.sqrt_pos.mpr hq
  have hbp : b = p.g2 * t := rfl
  have hty : t ^ 2 * p.g1 = y := by rw [ht, Real.sq_sqrt hq.le]; field_simp
  -- stretch the width to that of the full section
  have htl : tl = ∫ ξ in -(p.g2 / 2)..p.g2 / 2, Real.sqrt (t ^ 2 + (8 * y / p.g2 ^ 2 * ξ) ^ 2) := by
    have := intervalIntegral.integral_comp_mul_left (a := -(p.g2 / 2)) (b := p.g2 / 2)
      (fun ξ => Real.sqrt (1 + (8 * p.g1 / p.g2 ^ 2 * ξ) ^ 2)) htp.ne'
    rw [show t * -(p.g2 / 2) = -(b / 2) by rw [hbp]; ring, show t * (p.g2 / 2) = b / 2 by rw [hbp]; ring,
      smul_eq_mul] at this
    have e : tl = t * ∫ ξ in -(p.g2 / 2)..p.g2 / 2, Real.sqrt (1 + (8 * p.g1 / p.g2 ^ 2 * (t * ξ)) ^ 2) := by
      rw [this, mul_inv_cancel_left₀ htp.ne']
    rw [e, ← intervalIntegral.integral_const_mul]
    congr 1; ext ξ
    rw [show t ^ 2 + (8 * y / p.g2 ^ 2 * ξ) ^ 2 = t ^ 2 * (1 + (8 * p.g1 / p.g2 ^ 2 * (t * ξ)) ^ 2) by
      rw [← hty]; ring, Real.sqrt_mul (by positivity), Real.sqrt_sq htp.le]
  refine ⟨hP, fun c => ?_, fun c => ?_⟩
  · have : y = p.g1 := by
      show min (max ((h1 + h2) / 2) 0) p.g1 = p.g1
      rw [max_eq_left (by linarith), min_eq_right (by linarith)]
    have t1 : t = 1 := by rw [ht, this, div_self hg.ne', Real.sqrt_one]
    rw [hP, htl, t1, one_pow]
  · have : y = (h1 + h2) / 2 := by
      show min (max ((h1 + h2) / 2) 0) p.g1 = _
      rw [max_eq_left (by linarith), min_eq_left (by linarith)]
    have t1 : t < 1 := by rw [ht, Real.sqrt_lt' one_pos, one_pow, div_lt_one hg]; linarith
    have t2 : t ^ 2 < 1 := by nlinarith
    rw [hP, htl]
    refine intervalIntegral.integral_lt_integral_of_continuousOn_of_le_of_exists_lt (by linarith)
      (by fun_prop) (by fun_prop) (fun x _ => Real.sqrt_le_sqrt (by linarith)) ⟨0, ⟨by linarith, by linarith⟩, ?_⟩
    exact Real.sqrt_lt_sqrt (by positivity) (by linarith)

/-! ### Examples -/

/-- A circular pipe of diameter 2 that is half full: the area is half the disc, the perimeter half the circle. -/
example : (∫ z in (0 : ℝ)..level 1 1 2, 2 * Real.sqrt ((2 / 2) ^ 2 - (z - 2 / 2) ^ 2)) = Real.pi / 2 := by
  have := C212_area .circular { g1 := 2, g2 := 0, g3 := 0, g4 := 0, g5 := 0, g6 := 0, g7 := 0 } ⟨by norm_num, trivial⟩
    (by simp) (by simp) 1 1
  simp only [chord] at this
  rw [← this]
  simp only [area]
  rw [circularA_eq _ _ two_pos]
  have : depth 1 1 2 = 1 := by rw [depth_eq]; norm_num
  rw [this]; simp [circF]

/-- A parabolic channel, a quarter full: the area is twice what it should be. -/
example (p : GP) (h : p.g1 = 4) (hb : 0 < p.g2) :
    area .parabolic p 1 1 = 2 * ∫ z in (0 : ℝ)..level 1 1 p.g1, chord .parabolic p z := by
  rw [← (C212_parabolic_area p ⟨by rw [h]; norm_num, hb⟩ 1 1).1]
  have e : level 1 1 p.g1 / p.g1 = (1 / 2) ^ 2 := by rw [level, h]; norm_num
  rw [e, Real.sqrt_sq (by norm_num)]; ring

end Pipedream.Geometry
