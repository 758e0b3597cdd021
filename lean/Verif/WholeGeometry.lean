import Verif.WholeModel
import Verif.GeometryProps
import Verif.InterpProps
import Mathlib.Analysis.SpecialFunctions.Trigonometric.Bounds

/-!
# Wet sections have positive area and hydraulic radius

Lemmas for `WholeProps`: what the sections deliver to a step.
-/

namespace Pipedream.Geometry

theorem depth_pos {h1 h2 ymax : ℝ} (hy : 0 < ymax) (h : 0 < h1 + h2) : 0 < depth h1 h2 ymax := by
  rw [depth_eq]; exact lt_min (lt_max_of_lt_left (by linarith)) hy

theorem segment_pos {t : ℝ} (h0 : 0 < t) : 0 < t - Real.cos t * Real.sin t := by
  have h1 : |Real.sin t| < t := by
    refine abs_lt.mpr ⟨?_, Real.sin_lt h0⟩
    rcases le_or_gt t 1 with h | h
    · linarith [Real.sin_pos_of_pos_of_le_one h0 h]
    · linarith [Real.neg_one_le_sin t]
  have h2 : Real.cos t * Real.sin t ≤ |Real.sin t| := by
    calc Real.cos t * Real.sin t ≤ |Real.cos t * Real.sin t| := le_abs_self _
      _ = |Real.cos t| * |Real.sin t| := abs_mul _ _
      _ ≤ 1 * |Real.sin t| := mul_le_mul_of_nonneg_right (Real.abs_cos_le_one t) (abs_nonneg _)
      _ = |Real.sin t| := one_mul _
  linarith

theorem circTheta_pos {y d : ℝ} (hd : 0 < d) (h0 : 0 < y) (h1 : y ≤ d) : 0 < circTheta y d := by
  rw [circTheta_eq hd h0.le h1, Real.arccos_pos]
  have : 0 < y / (d / 2) := by positivity
  linarith

/-- Sections whose area is positive as soon as they are wet. A compound section needs a low-flow channel
with sloping sides or a flat bottom. -/
def Wettable (s : Shape) (p : GP) : Prop :=
  Valid s p ∧ match s with
  | .circular => 0 ≤ p.g2
  | .rectClosed => 0 ≤ p.g3
  | .forceMain => 0 ≤ p.g2
  | .floodplain => 0 < p.g7 ∨ (0 < p.g2 ∧ 0 < p.g5)
  | _ => True

theorem area_pos {s : Shape} {p : GP} (hw : Wettable s p) {h1 h2 : ℝ} (h : 0 < h1 + h2) :
    0 < area s p h1 h2 := by
  obtain ⟨⟨hg, hv⟩, hw⟩ := hw
  have hd := depth_pos hg h
  have hdl := depth_le h1 h2 p.g1
  cases s <;> simp only [area] at *
  · have := segment_pos (circTheta_pos hg hd hdl)
    simp only [circularA]; positivity
  · simp only [rectA]; positivity
  · simp only [rectA]; positivity
  · simp only [triangularA]; positivity
  · obtain ⟨a, b⟩ := hv
    simp only [trapezoidalA]; positivity
  · simp only [parabolicA]; positivity
  · rw [ellipticalA_eq]
    set th := Real.arcsin ((depth h1 h2 p.g1 - p.g1 / 2) / (p.g1 / 2)) with hth
    have hr : (0:ℝ) < p.g1 / 2 := by linarith
    have h1' : -(Real.pi / 2) < th := by
      rw [hth, Real.neg_pi_div_two_lt_arcsin, lt_div_iff₀ hr]; linarith
    have key := segment_pos (t := Real.pi / 2 + th) (by linarith)
    rw [add_comm (Real.pi / 2) th, Real.cos_add_pi_div_two, Real.sin_add_pi_div_two] at key
    unfold ellF
    simp only [← hth]
    have : 0 < Real.pi / 2 + (th + Real.cos th * Real.sin th) := by linarith
    have hv : 0 < p.g2 := hv
    positivity
  · simp only [rectA]; positivity
  · simp only [forceMainA]; positivity
  · obtain ⟨a2, a3, a4, a5, a6, a7⟩ := hv
    rw [floodplainA_eq _ _ _ _ _ _ _ _ _ hg.le a3]
    unfold floodF
    set y := depth h1 h2 p.g1
    have b1 : 0 ≤ min (max (y - p.g2) 0) p.g3 := le_min (le_max_right _ _) a3
    have b2 : 0 ≤ max (y - (p.g2 + p.g3)) 0 := le_max_right _ _
    have b0 : 0 ≤ min y p.g2 := le_min hd.le a2
    rcases hw with hw | ⟨hw2, hw5⟩
    · have : 0 < p.g7 * y := mul_pos hw hd
      have e1 : 0 ≤ min y p.g2 * (p.g5 * min y p.g2) := by positivity
      have e2 : 0 ≤ min (max (y - p.g2) 0) p.g3 * (2 * p.g5 * p.g2 + p.g6 * min (max (y - p.g2) 0) p.g3) := by
        positivity
      have e3 : 0 ≤ max (y - (p.g2 + p.g3)) 0 *
        (2 * p.g5 * p.g2 + 2 * p.g6 * p.g3 + p.g4 * max (y - (p.g2 + p.g3)) 0) := by positivity
      linarith
    · have b0' : 0 < min y p.g2 := lt_min hd hw2
      have e1 : 0 < min y p.g2 * (p.g5 * min y p.g2) := by positivity
      have e2 : 0 ≤ min (max (y - p.g2) 0) p.g3 * (2 * p.g5 * p.g2 + p.g6 * min (max (y - p.g2) 0) p.g3) := by
        positivity
      have e3 : 0 ≤ max (y - (p.g2 + p.g3)) 0 *
        (2 * p.g5 * p.g2 + 2 * p.g6 * p.g3 + p.g4 * max (y - (p.g2 + p.g3)) 0) := by positivity
      have : 0 ≤ p.g7 * y := mul_nonneg a7 hd.le
      linarith

theorem perimeter_pos {eps old : ℝ} (he : 0 < eps) {s : Shape} {p : GP} (hv : Valid s p)
    (ho : s = .elliptical → 0 < old) {h1 h2 : ℝ} (h : 0 < h1 + h2) : 0 < perimeter eps old s p h1 h2 := by
  obtain ⟨hg, hv⟩ := hv
  have hd := depth_pos hg h
  have hdl := depth_le h1 h2 p.g1
  cases s <;> simp only [perimeter] at *
  · have := circTheta_pos hg hd hdl
    simp only [circularPe]; positivity
  · simp only [rectPe]; positivity
  · simp only [rectPe]; positivity
  · simp only [triangularPe]; positivity
  · obtain ⟨h2, h3⟩ := hv; simp only [trapezoidalPe]; positivity
  · exact parabolicPe_pos he h1 h2 hg hv
  · exact ho trivial
  · exact hv
  · simp only [forceMainPe]; positivity
  · obtain ⟨h2', h3, h4, h5, h6, h7⟩ := hv
    simp only [floodplainPe]
    generalize depth h1 h2 p.g1 = y at hd
    have hi : 0 ≤ ind y := by unfold ind; split_ifs <;> norm_num
    have hs : ∀ z : ℝ, 1 ≤ Real.sqrt (1 + z ^ 2) := fun z => by rw [Real.one_le_sqrt]; nlinarith [sq_nonneg z]
    have hc : ∀ a z : ℝ, 0 ≤ a → 2 * a ≤ 2 * a * Real.sqrt (1 + z ^ 2) := fun a z ha => by
      nlinarith [hs z]
    have h7i : 0 ≤ p.g7 * ind y := mul_nonneg h7 hi
    unfold tiers
    split_ifs with a b <;> simp only
    · have := hc y p.g5 hd.le
      linarith
    · have a' := not_lt.mp a
      have := hc p.g2 p.g5 h2'
      have := hc (y - p.g2) p.g6 (by linarith)
      linarith
    · have b' := not_lt.mp b
      have := hc p.g2 p.g5 h2'
      have e : p.g2 + p.g3 - p.g2 = p.g3 := by ring
      have := hc p.g3 p.g6 h3
      have := hc (y - (p.g2 + p.g3)) p.g4 (by linarith)
      rw [e]; linarith

theorem topWidth_nonneg {s : Shape} {p : GP} (hw : Wettable s p) (h1 h2 : ℝ) : 0 ≤ topWidth s p h1 h2 := by
  obtain ⟨⟨hg, hv⟩, hw⟩ := hw
  have hwt : 0 ≤ wet h1 h2 := by rw [wet_eq]; exact le_max_right _ _
  have hd := depth_nonneg h1 h2 hg.le
  cases s <;> simp only [topWidth] at *
  · simp only [circularB]
    split_ifs
    · have : 0 ≤ Real.sin (circTheta (wet h1 h2) p.g1) := by
        unfold circTheta
        exact Real.sin_nonneg_of_nonneg_of_le_pi (Real.arccos_nonneg _) (Real.arccos_le_pi _)
      positivity
    · positivity
  · simp only [rectClosedB]; split_ifs
    · exact le_of_lt hv
    · positivity
  · exact le_of_lt hv
  · simp only [triangularB]; split_ifs <;> positivity
  · obtain ⟨a, b⟩ := hv; simp only [trapezoidalB]; split_ifs <;> positivity
  · simp only [parabolicB]; positivity
  · simp only [ellipticalB]
    exact mul_nonneg (mul_nonneg (by norm_num) (Real.cos_arcsin_nonneg _)) (Real.sqrt_nonneg _)
  · exact le_of_lt hv
  · simp only [forceMainB]; positivity
  · obtain ⟨a2, a3, a4, a5, a6, a7⟩ := hv
    have hi : 0 ≤ ind (depth h1 h2 p.g1) := by unfold ind; split_ifs <;> norm_num
    simp only [floodplainB]
    generalize depth h1 h2 p.g1 = y at *
    have h7i : 0 ≤ p.g7 * ind y := mul_nonneg a7 hi
    split_ifs with a b
    · positivity
    · have : 0 ≤ y - p.g2 := by linarith
      positivity
    · have : 0 ≤ y - (p.g2 + p.g3) := by linarith
      have : 0 ≤ p.g2 + p.g3 - p.g2 := by linarith
      positivity

end Pipedream.Geometry

namespace Pipedream.Interp

/-- A table that is positive above its first entry is positive at every argument above its first
abscissa. -/
theorem interpolate_pos {n : ℕ} {xp fp : ℕ → ℝ} (hn : 1 < n) (h0 : 0 ≤ fp 0)
    (hf : ∀ i, 0 < i → i < n → 0 < fp i) {x : ℝ} (hx : xp 0 < x) : 0 < interpolate .linear n xp fp x := by
  simp only [interpolate]
  have a : searchsorted n xp x ≠ 0 := by
    intro h
    have := searchsorted_ge (n := n) (xp := xp) (x := x) (by rw [h]; omega)
    rw [h] at this; linarith
  rw [if_neg a]
  by_cases b : searchsorted n xp x ≥ n
  · rw [if_pos b]; exact hf _ (by omega) (by omega)
  · rw [if_neg b]
    have hlt : searchsorted n xp x < n := by omega
    have h1 := searchsorted_ge hlt
    have h0' : xp (searchsorted n xp x - 1) < x := searchsorted_lt (n := n) (by omega)
    have p1 := hf _ (by omega) hlt
    have p0 : 0 ≤ fp (searchsorted n xp x - 1) := by
      rcases Nat.eq_zero_or_pos (searchsorted n xp x - 1) with h | h
      · rw [h]; exact h0
      · exact (hf _ h (by omega)).le
    set dx0 := x - xp (searchsorted n xp x - 1) with e0
    set dx1 := xp (searchsorted n xp x) - x with e1
    have d0 : 0 < dx0 := by linarith
    have d1 : 0 ≤ dx1 := by linarith
    have f0 : 0 < dx0 / (dx0 + dx1) := by positivity
    have f1 : dx0 / (dx0 + dx1) ≤ 1 := by rw [div_le_one (by linarith)]; linarith
    have : 0 ≤ (1 - dx0 / (dx0 + dx1)) * fp (searchsorted n xp x - 1) := mul_nonneg (by linarith) p0
    have : 0 < dx0 / (dx0 + dx1) * fp (searchsorted n xp x) := mul_pos f0 p1
    linarith

end Pipedream.Interp

namespace Pipedream.Step

open Pipedream.Geometry Pipedream.Interp

/-- Sections usable for a model with minimum depth `md`: wettable shapes, or tables starting below `md`
with positive areas and radii above the first entry. -/
def Section.Usable (ell : GP → ℝ → ℝ → ℝ) (md : ℝ) : Section → Prop
  | .regular s p => Wettable s p ∧ (s = .elliptical → ∀ h1 h2, 0 < h1 + h2 → 0 < ell p h1 h2)
  | .irregular n zs As Bs Rs => 1 < n ∧ zs 0 < md ∧ 0 ≤ As 0 ∧ 0 ≤ Rs 0 ∧ (∀ i, i < n → 0 ≤ Bs i) ∧
      ∀ i, 0 < i → i < n → 0 < As i ∧ 0 < Rs i

theorem Section.A_pos {ell : GP → ℝ → ℝ → ℝ} {md : ℝ} (hmd : 0 < md) {s : Section} (u : s.Usable ell md)
    {h1 h2 : ℝ} (k1 : md ≤ h1) (k2 : md ≤ h2) : 0 < s.A h1 h2 := by
  cases s with
  | regular s p => exact area_pos u.1 (by linarith)
  | irregular n zs As Bs Rs =>
    obtain ⟨hn, hz, a0, r0, -, h⟩ := u
    exact interpolate_pos hn a0 (fun i i0 i1 => (h i i0 i1).1) (by linarith)

theorem Section.R_pos {eps : ℝ} (he : 0 < eps) {ell : GP → ℝ → ℝ → ℝ} {md : ℝ} (hmd : 0 < md) {s : Section}
    (u : s.Usable ell md) {h1 h2 : ℝ} (k1 : md ≤ h1) (k2 : md ≤ h2) : 0 < s.R eps ell h1 h2 := by
  cases s with
  | regular s p =>
    have hp := perimeter_pos (eps := eps) (old := ell p h1 h2) he u.1.1
      (fun e => u.2 e h1 h2 (by linarith)) (h1 := h1) (h2 := h2) (by linarith)
    simp only [Section.R, hydRadius, gt_iff_lt, if_pos hp]
    exact div_pos (area_pos u.1 (by linarith)) hp
  | irregular n zs As Bs Rs =>
    obtain ⟨hn, hz, a0, r0, -, h⟩ := u
    exact interpolate_pos hn r0 (fun i i0 i1 => (h i i0 i1).2) (by linarith)

theorem Section.B_nonneg {ell : GP → ℝ → ℝ → ℝ} {md : ℝ} {s : Section} (u : s.Usable ell md) (h1 h2 : ℝ) :
    0 ≤ s.B h1 h2 := by
  cases s with
  | regular s p => exact topWidth_nonneg u.1 _ _
  | irregular n zs As Bs Rs =>
    obtain ⟨hn, hz, a0, r0, b, h⟩ := u
    obtain ⟨M, hM⟩ : ∃ M, ∀ i, i < n → Bs i ≤ M := ⟨tabMax Bs (n - 1), fun i hi => le_tabMax _ _ _ (by omega)⟩
    exact (C38_range .linear (lo := 0) (hi := M) (by omega) (fun i hi => ⟨b i hi, hM i hi⟩)).1

/-- Storage curves with positive area at every depth from `md` on. -/
def Storage.Usable (_md : ℝ) : Storage → Prop
  | .functional a _ c => 0 ≤ a ∧ 0 ≤ c ∧ (0 < a ∨ 0 < c)
  | .tabular n _ As _ => 0 < n ∧ ∀ i, i < n → 0 < As i

theorem Storage.A_pos {md : ℝ} (hmd : 0 < md) {s : Storage} (u : s.Usable md) {h : ℝ} (k : md ≤ h) :
    0 < s.A h := by
  cases s with
  | functional a b c =>
    obtain ⟨ha, hc, hac⟩ := u
    have hh : 0 < h := by linarith
    simp only [Storage.A, functionalArea, if_neg (not_lt.mpr hh.le)]
    have := Real.rpow_pos_of_pos hh b
    rcases hac with h' | h'
    · have := mul_pos h' this; linarith
    · have := mul_nonneg ha this.le; linarith
  | tabular n hs As Vs =>
    obtain ⟨hn, h'⟩ := u
    obtain ⟨i, hi, e⟩ := tabMin_mem As (n - 1)
    have := (C34_range (hs := hs) (As := As) (h := h) (lo := tabMin As (n - 1)) (hi := tabMax As (n - 1)) hn
      (fun i hi => ⟨tabMin_le _ _ _ (by omega), le_tabMax _ _ _ (by omega)⟩)).1
    have hi' := h' i (by omega)
    rw [← e] at hi'
    exact lt_of_lt_of_le hi' this

end Pipedream.Step
