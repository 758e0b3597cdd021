import Verif.TransectTable

/-!
# C141: where the depth of an irregular channel is measured from

`configure_hydraulic_geometry` samples a surveyed section at the levels `np.linspace(0., y.max(), m)`
(nsuperlink.py 351) and the solver reads the tables with the *depth* of the link (1903, 1911–1914). Here the
lookups are compared with the area of the section filled to that depth above its lowest station.
-/

namespace Pipedream.Geometry

open Pipedream.Interp

/-- Specification: `lo` and `hi` are the elevations of the lowest and of the highest of the `n` stations. -/
structure Extent (n : ℕ) (y : ℕ → ℝ) (lo hi : ℝ) : Prop where
  above : ∀ i, i < n → lo ≤ y i
  below : ∀ i, i < n → y i ≤ hi
  lowest : ∃ i, i < n ∧ y i = lo
  highest : ∃ i, i < n ∧ y i = hi

/-- Specification: the flow area at depth `h`, i.e. of the section filled to `h` above its lowest station. -/
noncomputable def areaAtDepth (n : ℕ) (x y : ℕ → ℝ) (lo h : ℝ) : ℝ := transectSum segA n x y (lo + h)

theorem segA_shift (w x0 x1 y0 y1 c : ℝ) : segA (w + c) x0 x1 (y0 + c) (y1 + c) = segA w x0 x1 y0 y1 := by
  have e1 : y1 + c - (y0 + c) = y1 - y0 := by ring
  have e2 : w + c - max (y0 + c) (y1 + c) = w - max y0 y1 := by rw [max_add_add_right]; ring
  have e3 : w + c - (y1 + c) = w - y1 := by ring
  have e4 : w + c - (y0 + c) = w - y0 := by ring
  have e5 : y1 + c - (w + c) = y1 - w := by ring
  simp only [segA, e1, e2, e3, e4, e5, gt_iff_lt, add_lt_add_iff_right, add_le_add_iff_right]

/-- **C141 (the section itself).** The area of a section at a depth does not depend on the datum of the
survey. -/
theorem C141_section_datum (n : ℕ) (x y : ℕ → ℝ) (lo h c : ℝ) :
    areaAtDepth n x (fun i => y i + c) (lo + c) h = areaAtDepth n x y lo h := by
  unfold areaAtDepth transectSum
  rw [show lo + c + h = lo + h + c by ring]
  simp only [segA_shift]

theorem segArea_pos {dx lo hi w : ℝ} (hdx : 0 < dx) (hw : lo < w) : 0 < segArea dx lo hi w := by
  unfold segArea
  rw [if_neg hw.not_gt]
  split_ifs with h
  · exact mul_pos hdx (by linarith)
  · exact div_pos (mul_pos hdx (pow_pos (by linarith) 2)) (by linarith)

/-- A section filled above one of its stations holds water. -/
theorem filled_pos {n : ℕ} (hn : 2 ≤ n) (x y : ℕ → ℝ) (hx : ∀ i, i + 1 < n → x i < x (i + 1)) {w : ℝ} {i : ℕ}
    (hi : i < n) (hw : y i < w) : 0 < transectSum segA n x y w := by
  have hx' : ∀ i, i + 1 < n → x i ≤ x (i + 1) := fun i h => (hx i h).le
  obtain ⟨s, hs, hlo⟩ : ∃ s, s + 1 < n ∧ min (y s) (y (s + 1)) < w := by
    rcases Nat.lt_or_ge (i + 1) n with h | h
    · exact ⟨i, h, lt_of_le_of_lt (min_le_left _ _) hw⟩
    · refine ⟨i - 1, by omega, ?_⟩
      rw [show i - 1 + 1 = i by omega]
      exact lt_of_le_of_lt (min_le_right _ _) hw
  rw [transectSum_eq]
  refine lt_of_lt_of_le ?_ (Finset.single_le_sum (f := fun i => segA w (x i) (x (i + 1)) (y i) (y (i + 1)))
    (fun j hj => ?_) (Finset.mem_range.mpr (show s < n - 1 by omega)))
  · rw [segA_eq _ _ _ _ _ (hx' s hs)]
    exact segArea_pos (sub_pos.mpr (hx s hs)) hlo
  · have := Finset.mem_range.mp hj
    rw [segA_eq _ _ _ _ _ (hx' j (by omega))]
    rcases le_or_gt w (min (y j) (y (j + 1))) with h | h
    · unfold segArea
      rcases h.lt_or_eq with h | h
      · rw [if_pos h]
      · rw [← h, if_neg (lt_irrefl _)]
        have hm := min_le_max (a := y j) (b := y (j + 1))
        have hd := sub_nonneg.mpr (hx' j (by omega))
        split_ifs with k
        · have : w = max (y j) (y (j + 1)) := le_antisymm (h ▸ hm) k
          rw [← this]; simp
        · simp
    · exact (segArea_pos (sub_pos.mpr (hx j (by omega))) h).le

/-- An empty section has area zero, also when it is filled exactly to its lowest station. -/
theorem filled_lowest {n : ℕ} (x y : ℕ → ℝ) (hx : ∀ i, i + 1 < n → x i ≤ x (i + 1)) {w : ℝ}
    (hw : ∀ i, i < n → w ≤ y i) : transectSum segA n x y w = 0 := by
  rw [transectSum_eq]
  apply Finset.sum_eq_zero
  intro j hj
  have := Finset.mem_range.mp hj
  rw [segA_eq _ _ _ _ _ (hx j (by omega))]
  have h : w ≤ min (y j) (y (j + 1)) := le_min (hw j (by omega)) (hw (j + 1) (by omega))
  unfold segArea
  rcases h.lt_or_eq with h | h
  · rw [if_pos h]
  · rw [← h, if_neg (lt_irrefl _)]
    have hm := min_le_max (a := y j) (b := y (j + 1))
    split_ifs with k
    · have : w = max (y j) (y (j + 1)) := le_antisymm (h ▸ hm) k
      rw [← this]; simp
    · simp

theorem lookup_at {n : ℕ} (x y : ℕ → ℝ) {hi : ℝ} (hhi : 0 < hi)
    {m s : ℕ} (hm : 2 ≤ m) (hs : s < m) : lookupArea n x y hi m (levels hi m s) =
      transectSum segA n x y (levels hi m s) := by
  rcases Nat.lt_or_ge (s + 1) m with h | h
  · have hlt := levels_sorted hhi m s (s + 1) (by omega) h
    unfold lookupArea
    rw [C38_linear_chord (levels_sorted hhi m) h le_rfl hlt.le]
    simp
  · obtain ⟨p, rfl⟩ : ∃ p, s = p + 1 := ⟨s - 1, by omega⟩
    have hlt := levels_sorted hhi m p (p + 1) (by omega) hs
    unfold lookupArea
    rw [C38_linear_chord (levels_sorted hhi m) hs hlt.le le_rfl, div_self (sub_ne_zero.mpr hlt.ne')]
    ring

theorem levels_zero (hi : ℝ) (m : ℕ) : levels hi m 0 = 0 := by simp [levels]

/-- **C141 (negation, exact).** A channel whose highest station lies above the datum of its survey has, at
every sampled depth, the area of the section filled to that depth if and only if the survey is measured from
its lowest point. -/
theorem C141_datum_iff {n : ℕ} (hn : 2 ≤ n) (x y : ℕ → ℝ) (hx : ∀ i, i + 1 < n → x i < x (i + 1)) {lo hi : ℝ}
    (e : Extent n y lo hi) (hhi : 0 < hi) {m : ℕ} (hm : 2 ≤ m) :
    (∀ s, s < m → lookupArea n x y hi m (levels hi m s) = areaAtDepth n x y lo (levels hi m s)) ↔ lo = 0 := by
  have hx' : ∀ i, i + 1 < n → x i ≤ x (i + 1) := fun i h => (hx i h).le
  constructor
  · intro h
    obtain ⟨i, hi', hlo⟩ := e.lowest
    rcases lt_trichotomy lo 0 with h0 | h0 | h0
    · exfalso
      have h1 := h 0 (by omega)
      rw [lookup_at x y hhi hm (by omega), levels_zero] at h1
      unfold areaAtDepth at h1
      rw [add_zero, filled_lowest x y hx' e.above] at h1
      exact (filled_pos hn x y hx hi' (hlo ▸ h0)).ne' h1
    · exact h0
    · exfalso
      have h1 := h (m - 1) (by omega)
      rw [lookup_at x y hhi hm (by omega), levels_last hm] at h1
      unfold areaAtDepth at h1
      have g := (C63_transect_growth n x y hx' hi (lo + hi)).1
      have hB : 0 < transectSum segB n x y hi := by
        rw [transectSum_eq]
        apply Finset.sum_pos
        · intro j hj
          have := Finset.mem_range.mp hj
          rw [segB_eq]
          unfold segWidth
          rw [if_neg (not_lt.mpr ((min_le_left _ _).trans (e.below j (by omega)))),
            if_pos (max_le (e.below j (by omega)) (e.below (j + 1) (by omega)))]
          exact sub_pos.mpr (hx j (by omega))
        · exact ⟨0, Finset.mem_range.mpr (by omega)⟩
      have : 0 < transectSum segB n x y hi * (lo + hi - hi) := mul_pos hB (by linarith)
      linarith
  · rintro rfl s hs
    rw [lookup_at x y hhi hm hs, areaAtDepth, zero_add]

/-- **C141, where it holds.** Surveys measured from their lowest point: between sampled depths the area is
that of the section, too large by at most the spacing times the growth of the width. -/
theorem C141_depth_partial {n : ℕ} (x y : ℕ → ℝ) (hx : ∀ i, i + 1 < n → x i ≤ x (i + 1)) {hi : ℝ} (hhi : 0 < hi)
    {m i : ℕ} (hi' : i + 1 < m) {h : ℝ} (h0 : levels hi m i ≤ h) (h1 : h ≤ levels hi m (i + 1)) :
    areaAtDepth n x y 0 h ≤ lookupArea n x y hi m h ∧
    lookupArea n x y hi m h ≤ areaAtDepth n x y 0 h + (levels hi m (i + 1) - levels hi m i) *
      (transectSum segB n x y (levels hi m (i + 1)) - transectSum segB n x y (levels hi m i)) := by
  have := C63_lookup_accuracy n x y hx hhi hi' h0 h1
  unfold areaAtDepth
  rw [zero_add]
  exact this

/-- **C141 (surveys in metres above sea level).** If all stations lie at least at a sampled level, then the
channel has area zero at every depth up to that level, although every positive depth of water fills the
section. -/
theorem C141_dry {n : ℕ} (hn : 2 ≤ n) (x y : ℕ → ℝ) (hx : ∀ i, i + 1 < n → x i < x (i + 1)) {lo hi : ℝ}
    (e : Extent n y lo hi) (hhi : 0 < hi) {m s : ℕ} (hm : 2 ≤ m) (hs : s < m) (hlo : levels hi m s ≤ lo) {h : ℝ}
    (hh : 0 < h) (hle : h ≤ levels hi m s) :
    lookupArea n x y hi m h = 0 ∧ 0 < areaAtDepth n x y lo h := by
  have hx' : ∀ i, i + 1 < n → x i ≤ x (i + 1) := fun i h => (hx i h).le
  have hmono := C63_lookup_mono n x y hx' hhi (m := m) (by omega)
  obtain ⟨i, hi', hyi⟩ := e.lowest
  refine ⟨le_antisymm ?_ (hmono.1 h), filled_pos hn x y hx hi' (by rw [hyi]; linarith)⟩
  refine (hmono.2 hle).trans_eq ?_
  rw [lookup_at x y hhi hm hs]
  exact filled_lowest x y hx' (fun i hi => hlo.trans (e.above i hi))

/-- **C141 (surveys reaching below their datum).** A station below the datum gives an empty channel a
positive area. -/
theorem C141_never_empty {n : ℕ} (hn : 2 ≤ n) (x y : ℕ → ℝ) (hx : ∀ i, i + 1 < n → x i < x (i + 1)) {hi : ℝ}
    (hhi : 0 < hi) {m i : ℕ} (hm : 2 ≤ m) (hi' : i < n) (hy : y i < 0) (h : ℝ) (hh : 0 ≤ h) :
    0 < lookupArea n x y hi m h := by
  have hx' : ∀ i, i + 1 < n → x i ≤ x (i + 1) := fun i h => (hx i h).le
  refine lt_of_lt_of_le ?_ ((C63_lookup_mono n x y hx' hhi (m := m) (by omega)).2 hh)
  have := lookup_at (n := n) x y hhi hm (show 0 < m by omega)
  rw [levels_zero] at this
  rw [this]
  exact filled_pos hn x y hx hi' hy

/-- **C141 (surveys measured down from the banks).** If no station lies above the datum, then every positive
depth is read as bank-full. All tabulated levels are at most zero, so `np.searchsorted` runs past the end of
the table, in whichever order it is. -/
theorem C141_bankfull (n : ℕ) (x y : ℕ → ℝ) {hi : ℝ} (hhi : hi ≤ 0) {m : ℕ} (hm : 2 ≤ m) {h : ℝ} (hh : 0 < h) :
    lookupArea n x y hi m h = transectSum segA n x y hi ∧
    lookupWidth n x y hi m h = transectSum segB n x y hi := by
  have hall : ∀ i, i < m → levels hi m i < h := by
    intro i _
    refine lt_of_le_of_lt ?_ hh
    exact div_nonpos_of_nonpos_of_nonneg (mul_nonpos_of_nonpos_of_nonneg hhi (Nat.cast_nonneg _))
      (Nat.cast_nonneg _)
  unfold lookupArea lookupWidth
  rw [C38_after _ (by omega) hall, C38_after _ (by omega) hall, levels_last hm]
  exact ⟨rfl, rfl⟩

/-- A ditch surveyed from 1 m to 2 m: half of the sampled depths are dry. -/
example : Extent 3 (fun i => if i = 1 then 1 else 2) 1 2 ∧
    (∀ i, i + 1 < 3 → (fun i : ℕ => (i : ℝ)) i < (fun i : ℕ => (i : ℝ)) (i + 1)) ∧ levels 2 3 1 ≤ (1 : ℝ) := by
  refine ⟨⟨?_, ?_, ⟨1, by norm_num⟩, ⟨0, by norm_num⟩⟩, ?_, by norm_num [levels]⟩
  · intro i _; split_ifs <;> norm_num
  · intro i _; split_ifs <;> norm_num
  · intro i _; push_cast; linarith

end Pipedream.Geometry
