import Verif.GeometryModel

/-!
# C63: irregular sections
-/

namespace Pipedream.Geometry

/-- A segment between elevations `lo ≤ hi` spanning `dx` horizontally: its water-surface width … -/
noncomputable def segWidth (dx lo hi w : ℝ) : ℝ :=
  if w < lo then 0 else if hi ≤ w then dx else dx * (w - lo) / (hi - lo)

/-- … and the water area above it. -/
noncomputable def segArea (dx lo hi w : ℝ) : ℝ :=
  if w < lo then 0 else if hi ≤ w then dx * (w - (lo + hi) / 2) else dx * (w - lo) ^ 2 / (2 * (hi - lo))

theorem segB_eq (w x0 x1 y0 y1 : ℝ) : segB w x0 x1 y0 y1 = segWidth (x1 - x0) (min y0 y1) (max y0 y1) w := by
  simp only [segB, segWidth]
  rcases le_total y0 y1 with h | h
  · rw [min_eq_left h, max_eq_right h]
    split_ifs with a b c d e f
    all_goals first
      | rfl
      | (exfalso; grind)
      | (have : y1 - y0 ≠ 0 := by grind
         field_simp)
  · rw [min_eq_right h, max_eq_left h]
    split_ifs with a b c d e f
    all_goals first
      | rfl
      | (exfalso; grind)
      | (have h1 : y1 - y0 ≠ 0 := by grind
         have h2 : y0 - y1 ≠ 0 := by grind
         field_simp; ring)

theorem segA_eq (w x0 x1 y0 y1 : ℝ) (hx : x0 ≤ x1) :
    segA w x0 x1 y0 y1 = segArea (x1 - x0) (min y0 y1) (max y0 y1) w := by
  have hdx : 0 ≤ x1 - x0 := by linarith
  generalize hd : x1 - x0 = dx at hdx
  simp only [segA, segArea, hd]
  rcases le_total y0 y1 with h | h
  · rw [min_eq_left h, max_eq_right h]
    have e1 : |dx * (y1 - y0) / 2| = dx * (y1 - y0) / 2 :=
      abs_of_nonneg (by have : 0 ≤ y1 - y0 := by linarith
                        positivity)
    have e2 : ¬ y1 ≤ w → y0 ≤ w → |dx / (y1 - y0) * (w - y0) * (w - y0) / 2| =
        dx / (y1 - y0) * (w - y0) * (w - y0) / 2 := by
      intro a b
      apply abs_of_nonneg
      have : 0 ≤ y1 - y0 := by linarith
      have : 0 ≤ w - y0 := by linarith
      positivity
    rw [e1]
    split_ifs with a b c d e f
    all_goals first
      | rfl
      | (exfalso; grind)
      | ring1
      | (rw [e2 (by grind) (by grind)]
         have : y1 - y0 ≠ 0 := by grind
         field_simp)
  · rw [min_eq_right h, max_eq_left h]
    have e1 : |dx * (y1 - y0) / 2| = dx * (y0 - y1) / 2 := by
      have e : dx * (y1 - y0) / 2 = -(dx * (y0 - y1) / 2) := by ring
      rw [e, abs_neg]
      exact abs_of_nonneg (by have : 0 ≤ y0 - y1 := by linarith
                              positivity)
    have e2 : ¬ y0 ≤ w → y1 ≤ w → |dx / (y1 - y0) * (y1 - w) * (w - y1) / 2| =
        dx / (y0 - y1) * (w - y1) * (w - y1) / 2 := by
      intro a b
      have e : dx / (y1 - y0) * (y1 - w) * (w - y1) / 2 = dx / (y0 - y1) * (w - y1) * (w - y1) / 2 := by
        have : dx / (y1 - y0) = -(dx / (y0 - y1)) := by rw [← neg_sub y0 y1, div_neg]
        rw [this]; ring
      rw [e]
      apply abs_of_nonneg
      have : 0 ≤ y0 - y1 := by linarith
      have : 0 ≤ w - y1 := by linarith
      positivity
    rw [e1]
    split_ifs with a b c d e f
    all_goals first
      | rfl
      | (exfalso; grind)
      | ring1
      | (rw [e2 (by grind) (by grind)]
         have : y0 - y1 ≠ 0 := by grind
         field_simp)

/-- Between two levels the area above a segment grows at least by width × rise; this holds for rises and
falls. -/
theorem seg_growth (dx lo hi : ℝ) (hdx : 0 ≤ dx) (h : lo ≤ hi) (w w' : ℝ) :
    segWidth dx lo hi w * (w' - w) ≤ segArea dx lo hi w' - segArea dx lo hi w := by
  unfold segWidth segArea
  by_cases hD : lo = hi
  · subst hD
    split_ifs <;> first | (exfalso; linarith) | nlinarith
  · have hD : 0 < hi - lo := by
      have := lt_of_le_of_ne h hD; linarith
    obtain ⟨s, hs, hs0⟩ : ∃ s, dx = s * (hi - lo) ∧ 0 ≤ s :=
      ⟨dx / (hi - lo), by field_simp, div_nonneg hdx hD.le⟩
    have k1 : ∀ v, dx * (v - lo) / (hi - lo) = s * (v - lo) := by
      intro v; rw [hs]; field_simp
    have k2 : ∀ v, dx * (v - lo) ^ 2 / (2 * (hi - lo)) = s * (v - lo) ^ 2 / 2 := by
      intro v; rw [hs]; field_simp
    simp only [k1, k2]
    have sq := fun v : ℝ => mul_nonneg hs0 (sq_nonneg v)
    split_ifs with a b c d e f g
    all_goals try rw [hs]
    all_goals first
      | nlinarith [sq (w' - w), sq (w' - lo), sq (w - lo), sq (w' - hi), sq (w - hi), sq (hi - lo)]

theorem segWidth_nonneg (dx lo hi w : ℝ) (hdx : 0 ≤ dx) : 0 ≤ segWidth dx lo hi w := by
  unfold segWidth
  split_ifs with a b
  · exact le_rfl
  · exact hdx
  · exact div_nonneg (mul_nonneg hdx (by linarith)) (by linarith)

theorem segWidth_le (dx lo hi w : ℝ) (hdx : 0 ≤ dx) : segWidth dx lo hi w ≤ dx := by
  unfold segWidth
  split_ifs with a b
  · exact hdx
  · exact le_rfl
  · rw [div_le_iff₀ (by linarith)]
    exact mul_le_mul_of_nonneg_left (by linarith) hdx

theorem transectSum_eq (seg : ℝ → ℝ → ℝ → ℝ → ℝ → ℝ) (n : ℕ) (x y : ℕ → ℝ) (w : ℝ) :
    transectSum seg n x y w = ∑ i ∈ Finset.range (n - 1), seg w (x i) (x (i + 1)) (y i) (y (i + 1)) := by
  unfold transectSum
  induction n - 1 with
  | zero => simp
  | succ m ih => rw [forRange_succ, ih, Finset.sum_range_succ]

/-- **C63.** For an irregular section with stations in order, any number of them, and any two water levels: the
top width is the rate at which the area grows (the area gained from one level to the other lies between the
two widths times the rise). -/
theorem C63_transect_growth (n : ℕ) (x y : ℕ → ℝ) (hx : ∀ i, i + 1 < n → x i ≤ x (i + 1)) (w w' : ℝ) :
    transectSum segB n x y w * (w' - w) ≤ transectSum segA n x y w' - transectSum segA n x y w ∧
    transectSum segA n x y w' - transectSum segA n x y w ≤ transectSum segB n x y w' * (w' - w) := by
  have key : ∀ v v', transectSum segB n x y v * (v' - v) ≤ transectSum segA n x y v' - transectSum segA n x y v := by
    intro v v'
    rw [transectSum_eq, transectSum_eq, transectSum_eq, Finset.sum_mul, ← Finset.sum_sub_distrib]
    apply Finset.sum_le_sum
    intro i hi
    have hi := Finset.mem_range.mp hi
    have hxi := hx i (by omega)
    rw [segA_eq _ _ _ _ _ hxi, segA_eq _ _ _ _ _ hxi, segB_eq]
    exact seg_growth _ _ _ (by linarith) min_le_max v v'
  exact ⟨key w w', by have := key w' w; linarith⟩

/-- **C63 (range).** Width lies between zero and the total width; area is non-negative, zero below the section
and non-decreasing. -/
theorem C63_transect_range (n : ℕ) (x y : ℕ → ℝ) (hx : ∀ i, i + 1 < n → x i ≤ x (i + 1)) :
    (∀ w, 0 ≤ transectSum segB n x y w ∧ transectSum segB n x y w ≤ x (n - 1) - x 0) ∧
    (∀ w, (∀ i, i < n → w < y i) → transectSum segA n x y w = 0) ∧
    (∀ w, 0 ≤ transectSum segA n x y w) ∧
    (∀ w w', w ≤ w' → transectSum segA n x y w ≤ transectSum segA n x y w') := by
  have hB : ∀ w, 0 ≤ transectSum segB n x y w := by
    intro w
    rw [transectSum_eq]
    apply Finset.sum_nonneg
    intro i hi
    have hi := Finset.mem_range.mp hi
    rw [segB_eq]
    exact segWidth_nonneg _ _ _ _ (by linarith [hx i (by omega)])
  refine ⟨fun w => ⟨hB w, ?_⟩, ?_, ?_, ?_⟩
  · rw [transectSum_eq, ← Finset.sum_range_sub]
    apply Finset.sum_le_sum
    intro i hi
    have hi := Finset.mem_range.mp hi
    rw [segB_eq]
    exact segWidth_le _ _ _ _ (by linarith [hx i (by omega)])
  · intro w hw
    rw [transectSum_eq]
    apply Finset.sum_eq_zero
    intro i hi
    have hi := Finset.mem_range.mp hi
    simp [segA, hw i (by omega), hw (i + 1) (by omega)]
  · intro w
    rw [transectSum_eq]
    apply Finset.sum_nonneg
    intro i hi
    have hi := Finset.mem_range.mp hi
    have hxi := hx i (by omega)
    rw [segA_eq _ _ _ _ _ hxi]
    generalize hlo : min (y i) (y (i+1)) = lo
    generalize hhi : max (y i) (y (i+1)) = hh
    have : lo ≤ hh := by rw [← hlo, ← hhi]; exact min_le_max
    have hdx : 0 ≤ x (i + 1) - x i := by linarith
    unfold segArea
    split_ifs with a b
    · exact le_rfl
    · exact mul_nonneg hdx (by linarith)
    · exact div_nonneg (mul_nonneg hdx (sq_nonneg _)) (by linarith)
  · intro w w' h
    have := (C63_transect_growth n x y hx w w').1
    have := mul_nonneg (hB w) (sub_nonneg.mpr h)
    linarith

/-- **C63 (perimeter).** The wetted perimeter is at least the top width. -/
theorem C63_transect_perimeter (n : ℕ) (x y : ℕ → ℝ) (w : ℝ) :
    transectSum segB n x y w ≤ transectSum segPe n x y w := by
  rw [transectSum_eq, transectSum_eq]
  apply Finset.sum_le_sum
  intro i _
  simp only [segB, segPe]
  split_ifs
  · exact le_rfl
  all_goals
    exact (le_abs_self _).trans (Real.abs_le_sqrt (le_add_of_nonneg_right (sq_nonneg _)))

/-- A V-shaped ditch. -/
example : (∀ i, i + 1 < 3 → (fun i : ℕ => (i : ℝ)) i ≤ (fun i : ℕ => (i : ℝ)) (i + 1)) ∧
    transectSum segB 3 (fun i => (i : ℝ)) (fun i => if i = 1 then 0 else 1) (1/2) = 1 := by
  constructor
  · intro i _; simp
  · simp only [transectSum_eq, segB]
    norm_num [Finset.sum_range_succ]

end Pipedream.Geometry
