import Verif.GeometryBaseProps

/-!
# C182: sections vary continuously with depth
-/

namespace Pipedream.Geometry

open Filter Topology

theorem continuous_wet : Continuous fun h : ℝ × ℝ => wet h.1 h.2 := by
  simp only [wet_eq]
  fun_prop

theorem continuous_depth (ymax : ℝ) : Continuous fun h : ℝ × ℝ => depth h.1 h.2 ymax := by
  simp only [depth_eq]
  fun_prop

theorem wet_pos {h : ℝ × ℝ} (w : 0 < h.1 + h.2) : 0 < wet h.1 h.2 := by
  rw [wet_eq]; exact lt_max_of_lt_left (by linarith)

theorem depthOf_pos {h : ℝ × ℝ} {ymax : ℝ} (hy : 0 < ymax) (w : 0 < h.1 + h.2) : 0 < depth h.1 h.2 ymax := by
  rw [depth_eq]; exact lt_min (lt_max_of_lt_left (by linarith)) hy

/-! ### C182 -/

/-- **C182 (area).** The flow area of every section is a continuous function of the two depths. -/
theorem C182_area (s : Shape) (p : GP) (hv : Valid s p) : Continuous fun h : ℝ × ℝ => area s p h.1 h.2 := by
  have d := continuous_depth p.g1
  cases s
  · simp only [area, circularA_eq _ _ hv.1, circF]
    have := Real.continuous_arccos
    fun_prop
  · simp only [area, rectA]; fun_prop
  · simp only [area, rectA]; fun_prop
  · simp only [area, triangularA]; fun_prop
  · simp only [area, trapezoidalA]; fun_prop
  · simp only [area, parabolicA]; fun_prop
  · simp only [area, ellipticalA]
    have := Real.continuous_arcsin
    fun_prop
  · simp only [area, rectA]; fun_prop
  · simp only [area, forceMainA]; fun_prop
  · exact C32_floodplain_continuous p hv

/-- The wetted perimeter of a link as a function of its depths, that of an ellipse being what `handle_elliptical_perimeter`
supplies (`ellipticalPe`). -/
noncomputable def wetted (eps : ℝ) (s : Shape) (p : GP) (h : ℝ × ℝ) : ℝ :=
  perimeter eps (ellipticalPe h.1 h.2 p.g1 p.g2) s p h.1 h.2

theorem continuous_ellipticalPe (g1 g2 : ℝ) : Continuous fun h : ℝ × ℝ => ellipticalPe h.1 h.2 g1 g2 := by
  have d := continuous_depth g1
  have a := Real.continuous_arcsin
  have e : Continuous fun t : ℝ => ellipeinc t (1 - (g2 / 2) ^ 2 / (g1 / 2) ^ 2) := by
    unfold ellipeinc
    exact intervalIntegral.continuous_primitive (fun a b => (continuous_ell _).intervalIntegrable a b) 0
  simp only [ellipticalPe]
  exact continuous_const.add (continuous_const.mul (e.comp (by fun_prop)))

/-- **C182 (perimeter).** So is the wetted perimeter, for all shapes other than the parabola and the compound section. -/
theorem C182_perimeter (eps : ℝ) (s : Shape) (p : GP) (hv : Valid s p) (np : s ≠ .parabolic) (nf : s ≠ .floodplain) :
    Continuous (wetted eps s p) := by
  have d := continuous_depth p.g1
  unfold wetted
  cases s
  · have e : ∀ h : ℝ × ℝ, circularPe h.1 h.2 p.g1 = 2 * (p.g1 / 2) * Real.arccos (1 - depth h.1 h.2 p.g1 / (p.g1 / 2)) := by
      intro h
      simp only [circularPe, circTheta_eq hv.1 (depth_nonneg _ _ hv.1.le) (depth_le _ _ _)]
    simp only [perimeter, e]
    have := Real.continuous_arccos
    fun_prop
  · simp only [perimeter, rectPe]; fun_prop
  · simp only [perimeter, rectPe]; fun_prop
  · simp only [perimeter, triangularPe]; fun_prop
  · simp only [perimeter, trapezoidalPe]; fun_prop
  · exact absurd rfl np
  · simp only [perimeter]; exact continuous_ellipticalPe _ _
  · simp only [perimeter, widePe]; fun_prop
  · simp only [perimeter, forceMainPe]; fun_prop
  · exact absurd rfl nf

/-- The perimeter of the compound section without case distinctions. -/
theorem floodplainPe_eq (h1 h2 : ℝ) {g1 g2 g3 g4 g5 g6 g7 : ℝ} (H3 : 0 ≤ g3) :
    floodplainPe h1 h2 g1 g2 g3 g4 g5 g6 g7
      = 2 * min (depth h1 h2 g1) g2 * Real.sqrt (1 + g5 ^ 2)
        + 2 * min (max (depth h1 h2 g1 - g2) 0) g3 * Real.sqrt (1 + g6 ^ 2)
        + 2 * max (depth h1 h2 g1 - (g2 + g3)) 0 * Real.sqrt (1 + g4 ^ 2) + g7 * ind (depth h1 h2 g1) := by
  simp only [floodplainPe]
  generalize depth h1 h2 g1 = y
  unfold tiers
  split_ifs with a b
  · rw [min_eq_left a.le, max_eq_right (by linarith), max_eq_right (by linarith), min_eq_left H3]
  · rw [min_eq_right (not_lt.mp a), max_eq_left (by linarith [not_lt.mp a]), max_eq_right (by linarith),
      min_eq_left (by linarith)]
  · rw [min_eq_right (not_lt.mp a), max_eq_left (by linarith [not_lt.mp a]), max_eq_left (by linarith [not_lt.mp b]),
      min_eq_right (by linarith [not_lt.mp b])]
    simp only [add_sub_cancel_left]

theorem ind_continuousAt {y : ℝ} (h : 0 < y) : ContinuousAt ind y := by
  refine (continuousAt_const (y := (1 : ℝ))).congr ?_
  filter_upwards [Ioi_mem_nhds h] with z hz
  simp [ind, Set.mem_Ioi.mp hz]

/-- **C182 (perimeter of wet sections).** The wetted perimeter of every section is continuous wherever there is water. -/
theorem C182_perimeter_wet (eps : ℝ) (s : Shape) (p : GP) (hv : Valid s p) {h : ℝ × ℝ} (w : 0 < h.1 + h.2) :
    ContinuousAt (wetted eps s p) h := by
  have d := continuous_depth p.g1
  by_cases np : s = .parabolic
  · subst np
    have hg : 0 < p.g2 := hv.2
    have e : wetted eps .parabolic p =ᶠ[𝓝 h] fun h => p.g2 / 2 * (Real.sqrt (1 + (4 * depth h.1 h.2 p.g1 / p.g2) ^ 2)
        + 1 / (4 * depth h.1 h.2 p.g1 / p.g2)
          * Real.log (4 * depth h.1 h.2 p.g1 / p.g2 + Real.sqrt (1 + (4 * depth h.1 h.2 p.g1 / p.g2) ^ 2))) := by
      have : ∀ᶠ z : ℝ × ℝ in 𝓝 h, 0 < z.1 + z.2 :=
        (by fun_prop : Continuous fun z : ℝ × ℝ => z.1 + z.2).continuousAt.eventually_const_lt w
      filter_upwards [this] with z hz
      have hz : 0 < (z.1 + z.2) / 2 := by linarith
      simp only [wetted, perimeter, parabolicPe, if_neg (not_le.mpr hz), depth, wet, if_neg (not_lt.mpr hz.le)]
    refine ContinuousAt.congr ?_ e.symm
    have x : 0 < 4 * depth h.1 h.2 p.g1 / p.g2 := by have := depthOf_pos hv.1 w; positivity
    have xc : ContinuousAt (fun h : ℝ × ℝ => 4 * depth h.1 h.2 p.g1 / p.g2) h := by fun_prop
    have sc : ContinuousAt (fun h : ℝ × ℝ => Real.sqrt (1 + (4 * depth h.1 h.2 p.g1 / p.g2) ^ 2)) h := by fun_prop
    refine continuousAt_const.mul (sc.add ((continuousAt_const.div xc x.ne').mul ((xc.add sc).log ?_)))
    exact (add_pos_of_pos_of_nonneg x (Real.sqrt_nonneg _)).ne'
  · by_cases nf : s = .floodplain
    · subst nf
      obtain ⟨hg, h2, h3, h4, h5, h6, h7⟩ := hv
      have i : ContinuousAt (fun h : ℝ × ℝ => ind (depth h.1 h.2 p.g1)) h :=
        ContinuousAt.comp (g := ind) (f := fun h : ℝ × ℝ => depth h.1 h.2 p.g1) (ind_continuousAt (depthOf_pos hg w))
          d.continuousAt
      unfold wetted
      simp only [perimeter, floodplainPe_eq _ _ h3]
      fun_prop
    · exact (C182_perimeter eps s p hv np nf).continuousAt

theorem wetted_pos {eps : ℝ} (he : 0 < eps) (s : Shape) (p : GP) (hv : Valid s p) {h : ℝ × ℝ} (w : 0 < h.1 + h.2) :
    0 < wetted eps s p h := by
  have d := depthOf_pos hv.1 w
  have hg := hv.1
  unfold wetted
  cases s
  · simp only [perimeter, circularPe, circTheta_eq hg d.le (depth_le _ _ _)]
    have : 0 < Real.arccos (1 - depth h.1 h.2 p.g1 / (p.g1 / 2)) := by
      rw [Real.arccos_pos]
      have : 0 < depth h.1 h.2 p.g1 / (p.g1 / 2) := by positivity
      linarith
    positivity
  · have : 0 < p.g2 := hv.2
    simp only [perimeter, rectPe]; positivity
  · have : 0 < p.g2 := hv.2
    simp only [perimeter, rectPe]; positivity
  · simp only [perimeter, triangularPe]; positivity
  · have : 0 < p.g2 := hv.2.1
    simp only [perimeter, trapezoidalPe]; positivity
  · exact parabolicPe_pos he _ _ hg hv.2
  · exact lt_of_lt_of_le (by positivity) (C113_at_least_twice_the_depth h.1 h.2 p.g1 p.g2 hg)
  · exact hv.2
  · simp only [perimeter, forceMainPe]; positivity
  · obtain ⟨hg, h2, h3, h4, h5, h6, h7⟩ := hv
    simp only [perimeter, floodplainPe_eq _ _ h3]
    have i : ind (depth h.1 h.2 p.g1) = 1 := by simp [ind, d]
    rw [i]
    generalize depth h.1 h.2 p.g1 = y at d
    have r : ∀ g : ℝ, 1 ≤ Real.sqrt (1 + g ^ 2) := fun g => by rw [Real.one_le_sqrt]; nlinarith [sq_nonneg g]
    have a0 : 0 ≤ min y p.g2 := le_min d.le h2
    have b0 : 0 ≤ min (max (y - p.g2) 0) p.g3 := le_min (le_max_right _ _) h3
    have c0 : 0 ≤ max (y - (p.g2 + p.g3)) 0 := le_max_right _ _
    have t : min y p.g2 + min (max (y - p.g2) 0) p.g3 + max (y - (p.g2 + p.g3)) 0 = y := by
      rcases le_total y p.g2 with a | a
      · rw [min_eq_left a, max_eq_right (by linarith), max_eq_right (by linarith), min_eq_left h3]; ring
      · rw [min_eq_right a, max_eq_left (by linarith)]
        rcases le_total y (p.g2 + p.g3) with b | b
        · rw [max_eq_right (by linarith), min_eq_left (by linarith)]; ring
        · rw [max_eq_left (by linarith), min_eq_right (by linarith)]; ring
    have k1 := le_mul_of_one_le_right a0 (r p.g5)
    have k2 := le_mul_of_one_le_right b0 (r p.g6)
    have k3 := le_mul_of_one_le_right c0 (r p.g4)
    linarith

/-- **C182 (hydraulic radius).** The hydraulic radius of every section is continuous wherever there is water. -/
theorem C182_radius {eps : ℝ} (he : 0 < eps) (s : Shape) (p : GP) (hv : Valid s p) {h : ℝ × ℝ} (w : 0 < h.1 + h.2) :
    ContinuousAt (fun h => hydRadius (area s p h.1 h.2) (wetted eps s p h)) h := by
  have P := wetted_pos he s p hv w
  have c := C182_perimeter_wet eps s p hv w
  refine (((C182_area s p hv).continuousAt.div c P.ne')).congr ?_
  filter_upwards [c.eventually_const_lt P] with z hz
  simp only [hydRadius, if_pos hz]
  rfl

/-- **C182 (top width, partial).** The top width of every section is continuous wherever there is water, except where a pipe
or closed rectangle just becomes full. Missing: that depth, see `C182_slot_iff`. -/
theorem C182_width_partial (s : Shape) (p : GP) (hv : Valid s p) {h : ℝ × ℝ} (w : 0 < h.1 + h.2)
    (nf : s = .circular ∨ s = .rectClosed → h.1 + h.2 ≠ 2 * p.g1) :
    ContinuousAt (fun h : ℝ × ℝ => topWidth s p h.1 h.2) h := by
  have d := continuous_depth p.g1
  have wt := continuous_wet
  have ww : wet h.1 h.2 = (h.1 + h.2) / 2 := by rw [wet_eq, max_eq_left (by linarith)]
  have gt : ∀ {f : ℝ × ℝ → ℝ} {c : ℝ}, ContinuousAt f h → h.1 + h.2 ≠ 2 * p.g1 →
      ContinuousAt (fun z : ℝ × ℝ => if wet z.1 z.2 < p.g1 then f z else c) h := by
    intro f c hf ne
    rcases lt_or_gt_of_ne ne with l | g
    · refine hf.congr ?_
      filter_upwards [wt.continuousAt.eventually_lt_const (show wet h.1 h.2 < p.g1 by rw [ww]; linarith)] with z hz
      rw [if_pos hz]
    · refine (continuousAt_const (y := c)).congr ?_
      filter_upwards [wt.continuousAt.eventually_const_lt (show p.g1 < wet h.1 h.2 by rw [ww]; linarith)] with z hz
      rw [if_neg (not_lt.mpr hz.le)]
  have cut : ∀ a b : ℝ, Continuous fun z : ℝ × ℝ => if wet z.1 z.2 < p.g1 then a + b * wet z.1 z.2 else a + b * p.g1 := by
    intro a b
    have : (fun z : ℝ × ℝ => if wet z.1 z.2 < p.g1 then a + b * wet z.1 z.2 else a + b * p.g1)
        = fun z : ℝ × ℝ => a + b * depth z.1 z.2 p.g1 := by
      funext z
      simp only [depth]
      split_ifs with a b b
      · exact absurd (a.trans b) (lt_irrefl _)
      · rfl
      · rfl
      · rw [le_antisymm (not_lt.mp b) (not_lt.mp a)]
    rw [this]
    fun_prop
  cases s
  · simp only [topWidth, circularB]
    refine gt ?_ (nf (Or.inl rfl))
    have e : ∀ z : ℝ × ℝ, circTheta (wet z.1 z.2) p.g1 = Real.arccos (1 - min (max (wet z.1 z.2 / (p.g1 / 2)) 0) 2) := by
      intro z
      simp only [circTheta]
      congr 2
      split_ifs with a b b
      · linarith
      · rw [max_eq_right a.le, min_eq_left (by norm_num)]
      · rw [max_eq_left (not_lt.mp a), min_eq_right b.le]
      · rw [max_eq_left (not_lt.mp a), min_eq_left (not_lt.mp b)]
    simp only [e]
    have := Real.continuous_arccos
    fun_prop
  · simp only [topWidth, rectClosedB]
    exact gt continuousAt_const (nf (Or.inr rfl))
  · simp only [topWidth, rectOpenB]; fun_prop
  · have := (cut 0 (2 * p.g2)).continuousAt (x := h)
    simpa only [topWidth, triangularB, zero_add] using this
  · have := (cut p.g2 (2 * p.g3)).continuousAt (x := h)
    simpa only [topWidth, trapezoidalB] using this
  · simp only [topWidth, parabolicB]; fun_prop
  · simp only [topWidth, ellipticalB]
    have := Real.continuous_arcsin
    fun_prop
  · simp only [topWidth, rectOpenB]; fun_prop
  · simp only [topWidth, forceMainB]; fun_prop
  · obtain ⟨hg, h2, h3, h4, h5, h6, h7⟩ := hv
    have i : ContinuousAt (fun h : ℝ × ℝ => ind (depth h.1 h.2 p.g1)) h :=
      ContinuousAt.comp (g := ind) (f := fun h : ℝ × ℝ => depth h.1 h.2 p.g1) (ind_continuousAt (depthOf_pos hg w))
        d.continuousAt
    have e : ∀ z : ℝ × ℝ, floodplainB z.1 z.2 p.g1 p.g2 p.g3 p.g4 p.g5 p.g6 p.g7
        = 2 * p.g5 * min (depth z.1 z.2 p.g1) p.g2 + 2 * p.g6 * min (max (depth z.1 z.2 p.g1 - p.g2) 0) p.g3
          + 2 * p.g4 * max (depth z.1 z.2 p.g1 - (p.g2 + p.g3)) 0 + p.g7 * ind (depth z.1 z.2 p.g1) := by
      intro z
      simp only [floodplainB]
      generalize depth z.1 z.2 p.g1 = y
      split_ifs with a b
      · rw [min_eq_left a.le, max_eq_right (by linarith), max_eq_right (by linarith), min_eq_left h3]; ring
      · rw [min_eq_right (not_lt.mp a), max_eq_left (by linarith [not_lt.mp a]), max_eq_right (by linarith),
          min_eq_left (by linarith)]; ring
      · rw [min_eq_right (not_lt.mp a), max_eq_left (by linarith [not_lt.mp a]), max_eq_left (by linarith [not_lt.mp b]),
          min_eq_right (by linarith [not_lt.mp b])]; ring
    simp only [topWidth, e]
    fun_prop

/-- **C182, refuted (pipes becoming full).** When a pipe just becomes full its top width jumps, from zero to the width of the
slot; that of a closed rectangle jumps from its width to that of the slot. It is continuous exactly for a slot of width zero
in the pipe, and for a slot as wide as the rectangle. -/
theorem C182_slot_iff (p : GP) (hg : 0 < p.g1) {h : ℝ × ℝ} (full : h.1 + h.2 = 2 * p.g1) :
    (ContinuousAt (fun h : ℝ × ℝ => topWidth .circular p h.1 h.2) h ↔ p.g2 = 0) ∧
    (0 < p.g2 → (ContinuousAt (fun h : ℝ × ℝ => topWidth .rectClosed p h.1 h.2) h ↔ p.g3 = 1)) := by
  have wt := continuous_wet
  have wf : wet h.1 h.2 = p.g1 := by rw [wet_eq, max_eq_left (by linarith)]; linarith
  -- along depths which rise to the full pipe
  have line : Tendsto (fun t : ℝ => ((h.1 - t, h.2 - t) : ℝ × ℝ)) (𝓝[>] 0) (𝓝 h) := by
    have : Continuous fun t : ℝ => ((h.1 - t, h.2 - t) : ℝ × ℝ) := by fun_prop
    have := this.tendsto 0
    simp only [sub_zero] at this
    exact this.mono_left nhdsWithin_le_nhds
  have near : ∀ᶠ t : ℝ in 𝓝[>] 0, wet (h.1 - t) (h.2 - t) < p.g1 := by
    filter_upwards [Ioo_mem_nhdsGT hg] with t ht
    rw [wet_eq, max_eq_left] <;> have := ht.1 <;> have := ht.2 <;> linarith
  have e : ∀ z : ℝ × ℝ, circTheta (wet z.1 z.2) p.g1 = Real.arccos (1 - min (max (wet z.1 z.2 / (p.g1 / 2)) 0) 2) := by
    intro z
    simp only [circTheta]
    congr 2
    split_ifs with a b b
    · linarith
    · rw [max_eq_right a.le, min_eq_left (by norm_num)]
    · rw [max_eq_left (not_lt.mp a), min_eq_right b.le]
    · rw [max_eq_left (not_lt.mp a), min_eq_left (not_lt.mp b)]
  have sc : Continuous fun z : ℝ × ℝ => 2 * (p.g1 / 2) * Real.sin (circTheta (wet z.1 z.2) p.g1) := by
    simp only [e]
    have := Real.continuous_arccos
    fun_prop
  have s0 : 2 * (p.g1 / 2) * Real.sin (circTheta (wet h.1 h.2) p.g1) = 0 := by
    rw [wf, circTheta_eq hg hg.le le_rfl]
    have : 1 - p.g1 / (p.g1 / 2) = -1 := by field_simp; norm_num
    rw [this, Real.arccos_neg_one, Real.sin_pi, mul_zero]
  constructor
  · constructor
    · intro c
      have a := c.tendsto.comp line
      have b := (sc.tendsto h).comp line
      rw [s0] at b
      have : Tendsto ((fun h : ℝ × ℝ => topWidth .circular p h.1 h.2) ∘ fun t : ℝ => (h.1 - t, h.2 - t)) (𝓝[>] 0) (𝓝 0) := by
        refine b.congr' ?_
        filter_upwards [near] with t ht
        simp only [Function.comp, topWidth, circularB, if_pos ht]
      have u := tendsto_nhds_unique a this
      simp only [topWidth, circularB, wf, lt_irrefl, if_false] at u
      exact (mul_eq_zero.mp u).resolve_right hg.ne'
    · intro z
      have : (fun h : ℝ × ℝ => topWidth .circular p h.1 h.2)
          = fun h : ℝ × ℝ => 2 * (p.g1 / 2) * Real.sin (circTheta (wet h.1 h.2) p.g1) := by
        funext y
        simp only [topWidth, circularB]
        split_ifs with l
        · rfl
        · rw [z, zero_mul, e]
          have : 2 ≤ wet y.1 y.2 / (p.g1 / 2) := by
            rw [le_div_iff₀ (by linarith)]; have := not_lt.mp l; linarith
          rw [max_eq_left (by linarith), min_eq_right this]
          have : (1 : ℝ) - 2 = -1 := by norm_num
          rw [this, Real.arccos_neg_one, Real.sin_pi, mul_zero]
      rw [this]
      exact sc.continuousAt
  · intro g2
    constructor
    · intro c
      have a := c.tendsto.comp line
      have : Tendsto ((fun h : ℝ × ℝ => topWidth .rectClosed p h.1 h.2) ∘ fun t : ℝ => (h.1 - t, h.2 - t)) (𝓝[>] 0)
          (𝓝 p.g2) := by
        refine tendsto_const_nhds.congr' ?_
        filter_upwards [near] with t ht
        simp only [Function.comp, topWidth, rectClosedB, if_pos ht]
      have u := tendsto_nhds_unique a this
      simp only [topWidth, rectClosedB, wf, lt_irrefl, if_false] at u
      nlinarith
    · intro one
      have : (fun h : ℝ × ℝ => topWidth .rectClosed p h.1 h.2) = fun _ => p.g2 := by
        funext y
        simp only [topWidth, rectClosedB, one, one_mul, ite_self]
      rw [this]
      exact continuousAt_const

/-- A pipe of 1 m with a slot of 1 %: its top width jumps from 0 to 1 cm. -/
example : ¬ ContinuousAt (fun h : ℝ × ℝ => topWidth .circular ⟨1, 0.01, 0, 0, 0, 0, 0⟩ h.1 h.2) (1, 1) := fun c => by
  have := (C182_slot_iff ⟨1, 0.01, 0, 0, 0, 0, 0⟩ one_pos (h := (1, 1)) (by norm_num)).1.mp c
  norm_num at this

example : ContinuousAt (fun h : ℝ × ℝ => topWidth .circular ⟨1, 0.01, 0, 0, 0, 0, 0⟩ h.1 h.2) (0.4, 0.5) :=
  C182_width_partial .circular _ ⟨one_pos, trivial⟩ (by norm_num) (fun _ => by norm_num)

end Pipedream.Geometry
