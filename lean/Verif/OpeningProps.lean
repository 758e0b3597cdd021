import Verif.GeometryProps
import Verif.ControlContinuityProps

/-!
# C191: opening an orifice further

Specification: at the same two heads an orifice that is opened further has no smaller flow area and passes no less
water. Proved for sections whose lower part does not become narrower when the opening grows, provided the height
used by the flow law is not below the height used by the area. Both conditions are needed: an elliptical orifice
keeps its width while its height grows, and the table of orifices carries the two heights in separate columns.
-/

namespace Pipedream.Geometry

noncomputable section

/-! ### Segments of a circle and of an ellipse under growing height -/

theorem chord_eq {d y : ℝ} (hd : 0 < d) :
    2 * (d / 2) * Real.sin (Real.arccos (1 - y / (d / 2))) = 2 * Real.sqrt (y * (d - y)) := by
  rw [Real.sin_arccos, show y * (d - y) = (d / 2) ^ 2 * (1 - (1 - y / (d / 2)) ^ 2) by field_simp; ring,
    Real.sqrt_mul (sq_nonneg _), Real.sqrt_sq (by linarith)]
  ring

theorem circF_continuous (d : ℝ) : Continuous (circF d) := by
  unfold circF
  have : Continuous fun y : ℝ => Real.arccos (1 - y / (d / 2)) := Real.continuous_arccos.comp (by fun_prop)
  fun_prop

theorem ellF_continuous (d w : ℝ) : Continuous (ellF d w) := by
  unfold ellF
  have : Continuous fun y : ℝ => Real.arcsin ((y - d / 2) / (d / 2)) := Real.continuous_arcsin.comp (by fun_prop)
  fun_prop

/-- In a larger circle a segment of the same height is no smaller. -/
theorem circF_diameter {d d' y : ℝ} (hd : 0 < d) (hdd : d ≤ d') (h0 : 0 ≤ y) (h1 : y ≤ d) :
    circF d y ≤ circF d' y := by
  have mono : MonotoneOn (fun y => circF d' y - circF d y) (Set.Icc 0 d) := by
    refine monotoneOn_of_deriv_nonneg (convex_Icc 0 d)
      ((circF_continuous d').sub (circF_continuous d)).continuousOn ?_ ?_
    · intro x hx
      rw [interior_Icc] at hx
      exact ((circF_hasDerivAt hx.1 (hx.2.trans_le hdd)).sub
        (circF_hasDerivAt hx.1 hx.2)).differentiableAt.differentiableWithinAt
    · intro x hx
      rw [interior_Icc] at hx
      have e := ((circF_hasDerivAt hx.1 (hx.2.trans_le hdd)).sub (circF_hasDerivAt hx.1 hx.2)).deriv
      have e' : deriv (fun y => circF d' y - circF d y) x = _ := e
      rw [e', chord_eq hd, chord_eq (hd.trans_le hdd)]
      have := Real.sqrt_le_sqrt (mul_le_mul_of_nonneg_left (sub_le_sub_right hdd x) hx.1.le)
      linarith
  have := mono ⟨le_rfl, hd.le⟩ ⟨h0, h1⟩ h0
  simp only [circF_zero] at this
  linarith

theorem ellChord_eq {d y : ℝ} (hd : 0 < d) :
    Real.cos (Real.arcsin ((y - d / 2) / (d / 2))) = Real.sqrt (4 * (y / d) * (1 - y / d)) := by
  rw [Real.cos_arcsin]
  congr 1
  field_simp
  ring

/-- In a taller ellipse of the same width a low segment is strictly smaller. -/
theorem ellF_height {d d' w y : ℝ} (hd : 0 < d) (hdd : d < d') (hw : 0 < w) (h0 : 0 < y) (h1 : y ≤ d / 2) :
    ellF d' w y < ellF d w y := by
  have hd' : 0 < d' := hd.trans hdd
  have mono : StrictMonoOn (fun y => ellF d w y - ellF d' w y) (Set.Icc 0 (d / 2)) := by
    refine strictMonoOn_of_deriv_pos (convex_Icc 0 (d / 2))
      ((ellF_continuous d w).sub (ellF_continuous d' w)).continuousOn ?_
    intro x hx
    rw [interior_Icc] at hx
    have e := ((ellF_hasDerivAt (g2 := w) hx.1 (show x < d by linarith [hx.2])).sub
      (ellF_hasDerivAt (g2 := w) hx.1 (show x < d' by linarith [hx.2]))).deriv
    have e' : deriv (fun y => ellF d w y - ellF d' w y) x = _ := e
    rw [e', ellChord_eq hd, ellChord_eq hd']
    have a : x / d' < x / d := div_lt_div_of_pos_left hx.1 hd hdd
    have b : x / d < 1 / 2 := by rw [div_lt_iff₀ hd]; linarith [hx.2]
    have c : 0 < x / d' := div_pos hx.1 hd'
    have k : Real.sqrt (4 * (x / d') * (1 - x / d')) < Real.sqrt (4 * (x / d) * (1 - x / d)) := by
      apply Real.sqrt_lt_sqrt
      · nlinarith
      · nlinarith
    have := mul_lt_mul_of_pos_left k hw
    linarith
  have := mono ⟨le_rfl, by linarith⟩ ⟨h0.le, h1⟩ h0
  simp only [ellF_zero hd, ellF_zero hd'] at this
  linarith

/-! ### Areas -/

theorem depth_opening {h t t' : ℝ} (h1 : t ≤ t') : depth h h t ≤ depth h h t' := by
  rw [depth_eq, depth_eq]; exact min_le_min le_rfl h1

theorem Valid.scaled {s : Shape} {p : GP} (hv : Valid s p) {t : ℝ} (ht : 0 < t) : Valid s { p with g1 := t } :=
  ⟨ht, by have := hv.2; cases s <;> exact this⟩

/-- At the same depth a taller section of the same kind has no smaller area. -/
theorem area_taller {s : Shape} {p : GP} (hv : Valid s p) (hf : s ≠ .floodplain) {h t t' : ℝ} (ht : 0 < t)
    (htt : t ≤ t') (ok : s = .elliptical → t' ≤ h) :
    area s { p with g1 := t } h h ≤ area s { p with g1 := t' } h h := by
  have ht' := ht.trans_le htt
  have d0 := depth_nonneg h h ht.le
  have dd := depth_opening (h := h) htt
  obtain ⟨g0, hw⟩ := hv
  cases s
  · simp only [area]
    rw [circularA_eq h h ht, circularA_eq h h ht']
    exact (circF_diameter ht htt d0 (depth_le _ _ _)).trans (circF_mono ht' dd)
  · exact mul_le_mul_of_nonneg_right dd (le_of_lt hw)
  · exact mul_le_mul_of_nonneg_right dd (le_of_lt hw)
  · simp only at hw
    exact mul_le_mul_of_nonneg_left (pow_le_pow_left₀ d0 dd 2) (le_of_lt hw)
  · simp only [area, trapezoidalA]
    simp only at hw
    exact mul_le_mul dd (by nlinarith [mul_le_mul_of_nonneg_left dd hw.2]) (by nlinarith [mul_nonneg hw.2 d0, hw.1])
      (d0.trans dd)
  · simp only [area, parabolicA]
    simp only at hw
    gcongr
  · simp only [area]
    rw [ellipticalA_eq, ellipticalA_eq, depth_full (by linarith [ok rfl]), depth_full (by linarith [ok rfl]),
      ellF_full ht, ellF_full ht']
    simp only at hw ⊢
    have := Real.pi_pos
    gcongr
  · exact mul_le_mul_of_nonneg_right dd (le_of_lt hw)
  · simp only [area, forceMainA]
    have := Real.pi_pos
    gcongr
  · exact absurd rfl hf

/-- The area of a section flowing full grows at least in proportion to its height. -/
theorem area_full_ratio {s : Shape} {p : GP} (hv : Valid s p) (hf : s ≠ .floodplain) {h t t' : ℝ} (ht : 0 < t)
    (htt : t ≤ t') (full : t' ≤ h) :
    area s { p with g1 := t } h h * t' ≤ area s { p with g1 := t' } h h * t := by
  have ht' := ht.trans_le htt
  have e : depth h h t = t := depth_full (by linarith)
  have e' : depth h h t' = t' := depth_full (by linarith)
  obtain ⟨g0, hw⟩ := hv
  have pp := Real.pi_pos
  have tt : 0 ≤ t * t' := by positivity
  have key : 0 ≤ t * t' * (t' - t) := mul_nonneg tt (by linarith)
  cases s
  · simp only [area]
    rw [circularA_eq h h ht, circularA_eq h h ht', e, e', circF_full ht, circF_full ht']
    nlinarith [mul_nonneg pp.le key]
  · simp only [area, rectA, e, e']; linarith
  · simp only [area, rectA, e, e']; linarith
  · simp only at hw
    simp only [area, triangularA, e, e']
    nlinarith [mul_nonneg (le_of_lt hw) key]
  · simp only at hw
    simp only [area, trapezoidalA, e, e']
    nlinarith [mul_nonneg hw.2 key]
  · simp only [area, parabolicA, e, e']; linarith
  · simp only [area]
    rw [ellipticalA_eq, ellipticalA_eq, e, e', ellF_full ht, ellF_full ht']
    apply le_of_eq; ring
  · simp only [area, rectA, e, e']; linarith
  · simp only [area, forceMainA]
    nlinarith [mul_nonneg pp.le key]
  · exact absurd rfl hf

theorem orificeArea_open {old : ℝ} {s : Shape} {p : GP} (hv : Valid s p) (hf : s ≠ .floodplain) {h_e u : ℝ}
    (hu : 0 < u) : orificeArea old s p h_e u = .ok (area s { p with g1 := p.g1 * u } h_e h_e) := by
  have hne : ¬ p.g1 * u / 2 = 0 := by have := mul_pos hv.1 hu; linarith
  cases s <;> simp_all [orificeArea]

/-- **C22 (opening partly, upper bound).** At no depth has a partly open orifice more area than the full section. -/
theorem C22_orifice_area_upper (old : ℝ) {s : Shape} {p : GP} (hv : Valid s p) (hf : s ≠ .floodplain) {h_e u : ℝ}
    (hu : 0 < u) (hu1 : u ≤ 1) : ∃ A, orificeArea old s p h_e u = .ok A ∧ 0 ≤ A ∧ A ≤ area s p p.g1 p.g1 := by
  have g0 := mul_pos hv.1 hu
  have gle : p.g1 * u ≤ p.g1 := mul_le_of_le_one_right hv.1.le hu1
  obtain ⟨nn, mono, cap, _⟩ := C28_area s _ (hv.scaled g0)
  refine ⟨_, orificeArea_open hv hf hu, nn _ _, ?_⟩
  refine (mono _ _ (max h_e p.g1) (max h_e p.g1) (by linarith [le_max_left h_e p.g1])).trans ?_
  rw [cap (max h_e p.g1) (max h_e p.g1) p.g1 p.g1 (by simp only; linarith [le_max_right h_e p.g1]) (by simp only; linarith)]
  exact area_taller (t' := p.g1) hv hf g0 gle fun _ => le_rfl

/-- **C191 (area).** Opened further, an orifice has no smaller flow area at the same depth; an elliptical one if it
is full at both openings. -/
theorem C191_area (old : ℝ) {s : Shape} {p : GP} (hv : Valid s p) (hf : s ≠ .floodplain) {h_e u u' : ℝ} (hu : 0 < u)
    (huu : u ≤ u') (ok : s = .elliptical → p.g1 * u' ≤ h_e) :
    ∃ A A', orificeArea old s p h_e u = .ok A ∧ orificeArea old s p h_e u' = .ok A' ∧ A ≤ A' :=
  ⟨_, _, orificeArea_open hv hf hu, orificeArea_open hv hf (hu.trans_le huu),
    area_taller hv hf (mul_pos hv.1 hu) (mul_le_mul_of_nonneg_left huu hv.1.le) ok⟩

/-- **C191 fails for elliptical orifices.** With the water no higher than half of the smaller opening, opening
further strictly reduces the flow area: the whole width is kept while the ellipse becomes taller. -/
theorem C191_elliptical_area (old : ℝ) {p : GP} (hv : Valid .elliptical p) {h_e u u' : ℝ} (hu : 0 < u) (huu : u < u')
    (h0 : 0 < h_e) (h1 : h_e ≤ p.g1 * u / 2) :
    ∃ A A', orificeArea old .elliptical p h_e u = .ok A ∧ orificeArea old .elliptical p h_e u' = .ok A' ∧ 0 < A' ∧
      A' < A := by
  have hg : 0 < p.g1 * u := mul_pos hv.1 hu
  have hgg : p.g1 * u < p.g1 * u' := mul_lt_mul_of_pos_left huu hv.1
  have hw : 0 < p.g2 := hv.2
  refine ⟨_, _, orificeArea_open hv (by simp) hu, orificeArea_open hv (by simp) (hu.trans huu), ?_, ?_⟩
  · simp only [area]
    rw [ellipticalA_eq, depth_same h0.le (by linarith)]
    have mono : StrictMonoOn (ellF (p.g1 * u') p.g2) (Set.Icc 0 (p.g1 * u')) := by
      refine strictMonoOn_of_deriv_pos (convex_Icc _ _) (ellF_continuous _ _).continuousOn ?_
      intro x hx
      rw [interior_Icc] at hx
      rw [(ellF_hasDerivAt (g2 := p.g2) hx.1 hx.2).deriv, ellChord_eq (hg.trans hgg)]
      refine mul_pos hw (Real.sqrt_pos.mpr ?_)
      have a : 0 < x / (p.g1 * u') := div_pos hx.1 (hg.trans hgg)
      have b : x / (p.g1 * u') < 1 := (div_lt_one (hg.trans hgg)).mpr hx.2
      nlinarith
    have := mono ⟨le_rfl, (hg.trans hgg).le⟩ ⟨h0.le, by linarith⟩ h0
    rwa [ellF_zero (hg.trans hgg)] at this
  · simp only [area]
    rw [ellipticalA_eq, ellipticalA_eq, depth_same h0.le (by linarith), depth_same h0.le (by linarith)]
    exact ellF_height hg hgg hw h0 h1

end

end Pipedream.Geometry

namespace Pipedream.Control

open Pipedream.Geometry

noncomputable section

/-- The size of the flow through an orifice, either direction. -/
theorem orificeRaw_abs {g Ao Co Hu Hd u : ℝ} {o : Orifice} (hg : 0 ≤ g) (ht : 0 ≤ o.opening u) :
    |orificeRaw g Ao Co Hu Hd u o| = if o.unidir = true ∧ Hu ≤ Hd then 0 else
      Real.sqrt (2 * g * Co ^ 2 * Ao ^ 2 * drive o.bottom (o.opening u) (max Hu Hd) (min Hu Hd)) := by
  by_cases one : o.unidir = true
  · rw [orificeRaw_oneway hg ht one]
    rcases lt_or_ge Hd Hu with h | h
    · rw [if_pos h, if_neg (fun c => absurd c.2 (not_le.mpr h)),
        orificeRaw_forward (o := { o with unidir := false }) hg ht h.le (by simp), abs_of_nonneg (Real.sqrt_nonneg _),
        max_eq_left h.le, min_eq_right h.le]
      rfl
    · rw [if_neg (not_lt.mpr h), if_pos ⟨one, h⟩, abs_zero]
  · rw [if_neg (fun c => one c.1), orificeRaw_law hg ht (by simpa using one), abs_mul,
      abs_of_nonneg (Real.sqrt_nonneg _)]
    unfold sgn
    split_ifs <;> simp

theorem drive_ratio {b Y H h u u' : ℝ} (hY : 0 ≤ Y) (hu : 0 < u) (huu : u ≤ u') (hh : h ≤ H) (top : b + Y * u' < H) :
    u ^ 2 * drive b (Y * u) H h ≤ u' ^ 2 * drive b (Y * u') H h := by
  have t := mul_le_mul_of_nonneg_left huu hY
  have t0 := mul_nonneg hY hu.le
  unfold drive
  rw [if_pos (by linarith), if_pos top]
  have sq : u ^ 2 ≤ u' ^ 2 := pow_le_pow_left₀ hu.le huu 2
  rcases le_total h (b + Y * u' / 2) with c | c
  · rw [max_eq_right c]
    have c1 : H - max h (b + Y * u / 2) ≤ H - (b + Y * u / 2) := by linarith [le_max_right h (b + Y * u / 2)]
    refine (mul_le_mul_of_nonneg_left c1 (sq_nonneg u)).trans ?_
    have y : 0 < H - b - Y * u' := by linarith
    have a : 0 ≤ (u' ^ 2 - u ^ 2) * (H - b - Y * u') := mul_nonneg (by linarith) y.le
    have a2 : 0 ≤ Y * (u' - u) * (u' * (u' - u) + u' * u + u ^ 2 - u ^ 2) := by
      have : u' * (u' - u) + u' * u + u ^ 2 - u ^ 2 = u' ^ 2 := by ring
      rw [this]
      have : 0 ≤ u' - u := by linarith
      positivity
    nlinarith [mul_nonneg hY (mul_nonneg (sub_nonneg.mpr huu) (mul_nonneg (hu.le.trans huu) hu.le)),
      mul_nonneg hY (mul_nonneg (sub_nonneg.mpr huu) (sq_nonneg u)),
      mul_nonneg hY (mul_nonneg (sub_nonneg.mpr huu) (sq_nonneg u'))]
  · rw [max_eq_left c, max_eq_left (by linarith)]
    exact mul_le_mul_of_nonneg_right sq (by linarith)

/-- What the two tables of an orifice have to agree on: it is a bottom orifice, or a side orifice whose height in
the flow law is not below the height of its section. -/
def Fits (p : GP) (o : Orifice) : Prop := o.tau = 0 ∨ (o.tau = 1 ∧ p.g1 ≤ o.y_max)

/-- **C191 (discharge).** At the same two heads, opened further, an orifice passes no less in either direction. -/
theorem C191_discharge {g Co Hu Hd old u u' A A' : ℝ} {s : Shape} {p : GP} {o : Orifice} (hv : Valid s p)
    (hf : s ≠ .floodplain) (fit : Fits p o) (hg : 0 ≤ g) (hu : 0 < u) (huu : u ≤ u')
    (ok : s = .elliptical → p.g1 * u' ≤ max (Hu - o.z_inv - o.z_o) (Hd - o.z_inv - o.z_o))
    (a : orificeArea old s p (max (Hu - o.z_inv - o.z_o) (Hd - o.z_inv - o.z_o)) u = .ok A)
    (a' : orificeArea old s p (max (Hu - o.z_inv - o.z_o) (Hd - o.z_inv - o.z_o)) u' = .ok A') :
    |orificeRaw g A Co Hu Hd u o| ≤ |orificeRaw g A' Co Hu Hd u' o| := by
  set y := max (Hu - o.z_inv - o.z_o) (Hd - o.z_inv - o.z_o) with hy
  have ey : y = max Hu Hd - o.bottom := by
    rw [hy, ← max_sub_sub_right]
    congr 1 <;> (unfold Orifice.bottom; ring)
  rw [orificeArea_open hv hf hu] at a
  rw [orificeArea_open hv hf (hu.trans_le huu)] at a'
  simp only [Except.ok.injEq] at a a'
  have g0 : 0 < p.g1 * u := mul_pos hv.1 hu
  have gg : p.g1 * u ≤ p.g1 * u' := mul_le_mul_of_nonneg_left huu hv.1.le
  have A0 : 0 ≤ A := by rw [← a]; exact (C28_area s _ (hv.scaled g0)).1 _ _
  have AA : A ≤ A' := by rw [← a, ← a']; exact area_taller hv hf g0 gg ok
  have AA2 : A ^ 2 ≤ A' ^ 2 := pow_le_pow_left₀ A0 AA 2
  have tt : 0 ≤ o.tau * o.y_max := by
    rcases fit with h | ⟨h, h'⟩
    · rw [h]; simp
    · rw [h]; linarith [hv.1]
  have ht : 0 ≤ o.opening u := mul_nonneg tt hu.le
  have ht' : 0 ≤ o.opening u' := mul_nonneg tt (hu.le.trans huu)
  have mm : min Hu Hd ≤ max Hu Hd := min_le_max
  rw [orificeRaw_abs hg ht, orificeRaw_abs hg ht']
  split_ifs with c
  · exact le_rfl
  apply Real.sqrt_le_sqrt
  rw [mul_assoc, mul_assoc (2 * g * Co ^ 2)]
  apply mul_le_mul_of_nonneg_left _ (by positivity)
  have dn := drive_nonneg (b := o.bottom) ht mm
  have dn' := drive_nonneg (b := o.bottom) ht' mm
  by_cases top : o.bottom + o.opening u' < max Hu Hd
  · rcases fit with h | ⟨h, h'⟩
    · have e : ∀ v, o.opening v = 0 := fun v => by simp [Orifice.opening, h]
      rw [e, e] at *
      exact mul_le_mul_of_nonneg_right AA2 dn
    · have e : ∀ v, o.opening v = o.y_max * v := fun v => by simp [Orifice.opening, h]
      rw [e] at *
      rw [e] at *
      have r := drive_ratio (b := o.bottom) (h := min Hu Hd) (hv.1.le.trans h') hu huu mm top
      have full : p.g1 * u' ≤ y := by
        have := mul_le_mul_of_nonneg_right h' (hu.le.trans huu)
        rw [ey]; linarith
      have q := area_full_ratio hv hf g0 gg full
      rw [a, a'] at q
      have q' : A * u' ≤ A' * u := by
        have : p.g1 * (A * u') ≤ p.g1 * (A' * u) := by nlinarith
        exact le_of_mul_le_mul_left this hv.1
      have q2 : (A * u') ^ 2 ≤ (A' * u) ^ 2 := pow_le_pow_left₀ (mul_nonneg A0 (hu.le.trans huu)) q' 2
      have u2 : 0 < u' ^ 2 := pow_pos (hu.trans_le huu) 2
      refine le_of_mul_le_mul_left ?_ u2
      calc u' ^ 2 * (A ^ 2 * drive o.bottom (o.y_max * u) (max Hu Hd) (min Hu Hd))
          = (A * u') ^ 2 * drive o.bottom (o.y_max * u) (max Hu Hd) (min Hu Hd) := by ring
        _ ≤ (A' * u) ^ 2 * drive o.bottom (o.y_max * u) (max Hu Hd) (min Hu Hd) :=
            mul_le_mul_of_nonneg_right q2 dn
        _ = A' ^ 2 * (u ^ 2 * drive o.bottom (o.y_max * u) (max Hu Hd) (min Hu Hd)) := by ring
        _ ≤ A' ^ 2 * (u' ^ 2 * drive o.bottom (o.y_max * u') (max Hu Hd) (min Hu Hd)) :=
            mul_le_mul_of_nonneg_left r (sq_nonneg _)
        _ = u' ^ 2 * (A' ^ 2 * drive o.bottom (o.y_max * u') (max Hu Hd) (min Hu Hd)) := by ring
  · have d : drive o.bottom (o.opening u) (max Hu Hd) (min Hu Hd)
        ≤ drive o.bottom (o.opening u') (max Hu Hd) (min Hu Hd) := by
      unfold drive
      rw [if_neg top]
      split_ifs with c1 c2 c3 <;> linarith [le_max_right (min Hu Hd) (o.bottom + o.opening u / 2)]
    exact mul_le_mul AA2 d dn (sq_nonneg _)

/-- Sections whose area at a given depth does not depend on how tall they are. -/
def Upright (s : Shape) : Prop :=
  s = .rectClosed ∨ s = .rectOpen ∨ s = .triangular ∨ s = .trapezoidal ∨ s = .parabolic ∨ s = .wide

/-- **C191 needs agreeing heights.** If the water stands above the opening of a side orifice as the flow law
measures it (`y_max * u'`) but not above the section as the area measures it (`g1 * u`), and the lower water is
below the middle of the opening, opening further strictly reduces the flow. -/
theorem C191_heights {g Co Hu Hd old u u' A A' : ℝ} {s : Shape} {p : GP} {o : Orifice} (hv : Valid s p)
    (up : Upright s) (side : o.tau = 1) (hy : 0 < o.y_max) (hg : 0 < g) (hC : Co ≠ 0) (hu : 0 < u) (huu : u < u')
    (hd : Hd < Hu) (above : o.bottom + o.y_max * u' < Hu) (low : Hd ≤ o.bottom + o.y_max * u / 2)
    (inside : Hu - o.bottom ≤ p.g1 * u)
    (a : orificeArea old s p (max (Hu - o.z_inv - o.z_o) (Hd - o.z_inv - o.z_o)) u = .ok A)
    (a' : orificeArea old s p (max (Hu - o.z_inv - o.z_o) (Hd - o.z_inv - o.z_o)) u' = .ok A') :
    A' = A ∧ 0 < orificeRaw g A' Co Hu Hd u' o ∧ orificeRaw g A' Co Hu Hd u' o < orificeRaw g A Co Hu Hd u o := by
  have hu' := hu.trans huu
  have ey : max (Hu - o.z_inv - o.z_o) (Hd - o.z_inv - o.z_o) = Hu - o.bottom := by
    rw [max_eq_left (by linarith)]; unfold Orifice.bottom; ring
  rw [ey] at a a'
  have hf : s ≠ .floodplain := by rcases up with h | h | h | h | h | h <;> simp [h]
  rw [orificeArea_open hv hf hu] at a
  rw [orificeArea_open hv hf hu'] at a'
  simp only [Except.ok.injEq] at a a'
  have yu : o.y_max * u < o.y_max * u' := mul_lt_mul_of_pos_left huu hy
  have yu0 : 0 < o.y_max * u := mul_pos hy hu
  have gg : p.g1 * u ≤ p.g1 * u' := mul_le_mul_of_nonneg_left huu.le hv.1.le
  have d : depth (Hu - o.bottom) (Hu - o.bottom) (p.g1 * u) = Hu - o.bottom := depth_same (by linarith) inside
  have d' : depth (Hu - o.bottom) (Hu - o.bottom) (p.g1 * u') = Hu - o.bottom :=
    depth_same (by linarith) (inside.trans gg)
  have pos : 0 < Hu - o.bottom := by linarith
  have AA : A' = A ∧ 0 < A := by
    obtain ⟨_, hw⟩ := hv
    rw [← a, ← a']
    rcases up with h | h | h | h | h | h <;> subst h <;> simp only at hw <;>
      simp only [area, rectA, triangularA, trapezoidalA, parabolicA, d, d'] <;> refine ⟨trivial, ?_⟩
    · positivity
    · positivity
    · positivity
    · exact mul_pos pos (by nlinarith [hw.1, mul_nonneg hw.2 pos.le])
    · positivity
    · positivity
  obtain ⟨rfl, A0⟩ := AA
  refine ⟨rfl, ?_⟩
  have e : ∀ v, o.opening v = o.y_max * v := fun v => by simp [Orifice.opening, side]
  have ht : 0 ≤ o.opening u := by rw [e]; exact yu0.le
  have ht' : 0 ≤ o.opening u' := by rw [e]; linarith
  rw [orificeRaw_forward hg.le ht hd.le fun _ => hd, orificeRaw_forward hg.le ht' hd.le fun _ => hd, e, e]
  unfold drive
  rw [if_pos above, if_pos (by linarith), max_eq_right (by linarith), max_eq_right (by linarith)]
  have k : 0 < 2 * g * Co ^ 2 * A' ^ 2 := by positivity
  exact ⟨Real.sqrt_pos.mpr (mul_pos k (by linarith)), Real.sqrt_lt_sqrt (mul_pos k (by linarith)).le
    (mul_lt_mul_of_pos_left (by linarith) k)⟩

/-- **C191 fails for elliptical orifices (flow).** With the water below half of the smaller opening, opening further
strictly reduces the flow. -/
theorem C191_elliptical {g Co Hu Hd old u u' A A' : ℝ} {p : GP} {o : Orifice} (hv : Valid .elliptical p)
    (side : o.tau = 1) (fit : p.g1 ≤ o.y_max) (hg : 0 < g) (hC : Co ≠ 0) (hu : 0 < u) (huu : u < u')
    (hd : Hd < Hu) (h0 : o.bottom < Hu) (h1 : Hu - o.bottom ≤ p.g1 * u / 2)
    (a : orificeArea old .elliptical p (max (Hu - o.z_inv - o.z_o) (Hd - o.z_inv - o.z_o)) u = .ok A)
    (a' : orificeArea old .elliptical p (max (Hu - o.z_inv - o.z_o) (Hd - o.z_inv - o.z_o)) u' = .ok A') :
    0 < orificeRaw g A' Co Hu Hd u' o ∧ orificeRaw g A' Co Hu Hd u' o < orificeRaw g A Co Hu Hd u o := by
  have ey : max (Hu - o.z_inv - o.z_o) (Hd - o.z_inv - o.z_o) = Hu - o.bottom := by
    rw [max_eq_left (by linarith)]; unfold Orifice.bottom; ring
  rw [ey] at a a'
  obtain ⟨B, B', b, b', B0, lt⟩ := C191_elliptical_area old hv hu huu (show 0 < Hu - o.bottom by linarith) h1
  rw [a] at b
  rw [a'] at b'
  simp only [Except.ok.injEq] at b b'
  subst b b'
  have e : ∀ v, o.opening v = o.y_max * v := fun v => by simp [Orifice.opening, side]
  have y1 := mul_le_mul_of_nonneg_right fit hu.le
  have y2 : o.y_max * u < o.y_max * u' := mul_lt_mul_of_pos_left huu (hv.1.trans_le fit)
  have g0 := mul_pos hv.1 hu
  have ht : 0 ≤ o.opening u := by rw [e]; linarith
  have ht' : 0 ≤ o.opening u' := by rw [e]; linarith
  rw [orificeRaw_forward hg.le ht hd.le fun _ => hd, orificeRaw_forward hg.le ht' hd.le fun _ => hd, e, e]
  unfold drive
  rw [if_neg (show ¬ o.bottom + o.y_max * u < Hu by linarith), if_neg (show ¬ o.bottom + o.y_max * u' < Hu by linarith),
    if_pos h0]
  have k : 0 < 2 * g * Co ^ 2 := by positivity
  have sq : A' ^ 2 < A ^ 2 := pow_lt_pow_left₀ lt B0.le two_ne_zero
  have hpos : 0 < Hu - o.bottom := by linarith
  refine ⟨Real.sqrt_pos.mpr (by positivity), Real.sqrt_lt_sqrt (by positivity) ?_⟩
  exact mul_lt_mul_of_pos_right (mul_lt_mul_of_pos_left sq k) hpos

/-! ### Cases meeting the hypotheses -/

/-- A rectangular side orifice of height 1 under 2 m of water, half and fully open. -/
example : ∃ A A' : ℝ, |orificeRaw 9.81 A 0.6 2 0 (1 / 2) ⟨0, 0, 1, 1, false⟩|
    ≤ |orificeRaw 9.81 A' 0.6 2 0 1 ⟨0, 0, 1, 1, false⟩| ∧ 0 < A := by
  have hv : Valid .rectOpen ⟨1, 1, 0, 0, 0, 0, 0⟩ := ⟨by norm_num, by norm_num⟩
  have a := orificeArea_open (old := 0) (h_e := 2) hv (by simp) (show (0:ℝ) < 1 / 2 by norm_num)
  have a' := orificeArea_open (old := 0) (h_e := 2) hv (by simp) (show (0:ℝ) < 1 by norm_num)
  have m : max ((2:ℝ) - 0 - 0) (0 - 0 - 0) = 2 := by norm_num
  refine ⟨_, _, C191_discharge (old := 0) hv (by simp) (Or.inr ⟨rfl, le_rfl⟩) (by norm_num) (by norm_num) (by norm_num)
    (by simp) (by simp only [m]; exact a) (by simp only [m]; exact a'), ?_⟩
  exact area_pos_rect _ (hv.scaled (by norm_num)) _ _ (by norm_num)

/-- A table with `A = 4` and `y_max = 1` gives a square section of side 2: under 1.5 m of water, opening it from 0.8 to
1 reduces the flow. -/
example : ∃ A A' : ℝ, 0 < orificeRaw 9.81 A' 0.6 1.5 0 1 ⟨0, 0, 1, 1, false⟩ ∧
    orificeRaw 9.81 A' 0.6 1.5 0 1 ⟨0, 0, 1, 1, false⟩ < orificeRaw 9.81 A 0.6 1.5 0 0.8 ⟨0, 0, 1, 1, false⟩ := by
  have hv : Valid .rectOpen ⟨2, 2, 0, 0, 0, 0, 0⟩ := ⟨by norm_num, by norm_num⟩
  exact ⟨_, _, (C191_heights (old := 0) (u := 0.8) (u' := 1) hv (Or.inr (Or.inl rfl)) rfl (by norm_num) (by norm_num)
    (by norm_num) (by norm_num) (by norm_num) (by norm_num) (by norm_num [Orifice.bottom])
    (by norm_num [Orifice.bottom]) (by norm_num [Orifice.bottom]) (orificeArea_open hv (by simp) (by norm_num))
    (orificeArea_open hv (by simp) (by norm_num))).2⟩

/-- An elliptical orifice of height 1 under 0.2 m of water: opening it from one half to one reduces the flow. -/
example : ∃ A A' : ℝ, 0 < orificeRaw 9.81 A' 0.6 0.2 0 1 ⟨0, 0, 1, 1, false⟩ ∧
    orificeRaw 9.81 A' 0.6 0.2 0 1 ⟨0, 0, 1, 1, false⟩ < orificeRaw 9.81 A 0.6 0.2 0 (1 / 2) ⟨0, 0, 1, 1, false⟩ := by
  have hv : Valid .elliptical ⟨1, 1, 0, 0, 0, 0, 0⟩ := ⟨by norm_num, by norm_num⟩
  exact ⟨_, _, C191_elliptical (old := 0) (u := 1 / 2) (u' := 1) hv rfl le_rfl (by norm_num)
    (by norm_num) (by norm_num) (by norm_num) (by norm_num) (by norm_num [Orifice.bottom])
    (by norm_num [Orifice.bottom]) (orificeArea_open hv (by simp) (by norm_num))
    (orificeArea_open hv (by simp) (by norm_num))⟩

end

end Pipedream.Control
