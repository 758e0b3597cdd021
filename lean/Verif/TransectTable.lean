import Verif.TransectProps
import Verif.InterpProps

/-!
# C63: the sampled tables of irregular sections

`configure_hydraulic_geometry` (nsuperlink.py 336–375) samples every transect at `sample_points`
equally spaced levels and the solver only ever reads the tables (1889–1949) through
`interpolate_geometry`. Here the lookups are compared with the exact section.
-/

namespace Pipedream.Geometry

open Pipedream.Interp

/-- `np.linspace(0., y.max(), m)` — nsuperlink.py 351; trusted library call given by its definition. -/
noncomputable def levels (ymax : ℝ) (m i : ℕ) : ℝ := ymax * i / (m - 1 : ℕ)

/-- `_A_ik[i] = interpolate_geometry(h_i, _z_range, _A_range, 1)` — nsuperlink.py 1885–1914, where the
table holds the exact areas at the levels — nsuperlink.py 352–354. -/
noncomputable def lookupArea (n : ℕ) (x y : ℕ → ℝ) (ymax : ℝ) (m : ℕ) (h : ℝ) : ℝ :=
  interpolate .linear m (levels ymax m) (fun i => transectSum segA n x y (levels ymax m i)) h

/-- The same for the top width. -/
noncomputable def lookupWidth (n : ℕ) (x y : ℕ → ℝ) (ymax : ℝ) (m : ℕ) (h : ℝ) : ℝ :=
  interpolate .linear m (levels ymax m) (fun i => transectSum segB n x y (levels ymax m i)) h

theorem levels_sorted {ymax : ℝ} (hy : 0 < ymax) (m : ℕ) : Interp.Sorted m (levels ymax m) := by
  intro i j hij hj
  unfold levels
  have h1 : (0 : ℝ) < (m - 1 : ℕ) := by
    have : 0 < m - 1 := by omega
    exact_mod_cast this
  have h2 : (i : ℝ) < j := by exact_mod_cast hij
  exact div_lt_div_of_pos_right (mul_lt_mul_of_pos_left h2 hy) h1

theorem levels_last {ymax : ℝ} {m : ℕ} (hm : 2 ≤ m) : levels ymax m (m - 1) = ymax := by
  unfold levels
  have : ((m - 1 : ℕ) : ℝ) ≠ 0 := by
    have : m - 1 ≠ 0 := by omega
    exact_mod_cast this
  field_simp

/-- **C63 (lookup, shape).** The looked-up area is non-negative and does not decrease with depth. -/
theorem C63_lookup_mono (n : ℕ) (x y : ℕ → ℝ) (hx : ∀ i, i + 1 < n → x i ≤ x (i + 1))
    {ymax : ℝ} (hy : 0 < ymax) {m : ℕ} (hm : 0 < m) :
    (∀ h, 0 ≤ lookupArea n x y ymax m h) ∧ Monotone (lookupArea n x y ymax m) := by
  have hr := C63_transect_range n x y hx
  constructor
  · intro h
    refine (C38_range .linear (hi := ∑ i ∈ Finset.range m, transectSum segA n x y (levels ymax m i))
      hm (fun i hi => ⟨hr.2.2.1 _, ?_⟩)).1
    exact Finset.single_le_sum (f := fun i => transectSum segA n x y (levels ymax m i))
      (fun i _ => hr.2.2.1 _) (Finset.mem_range.mpr hi)
  · intro h h' hle
    refine interpolate_mono ?_ hle
    intro i j hij hj
    apply hr.2.2.2
    rcases hij.lt_or_eq with h | h
    · exact (levels_sorted hy m i j h hj).le
    · rw [h]

/-- **C63 (lookup, accuracy).** Between two consecutive sampled levels the looked-up area is at least
the exact area, and exceeds it by at most the spacing times the difference of the two top widths; in
particular it is exact on any stretch of vertical walls. -/
theorem C63_lookup_accuracy (n : ℕ) (x y : ℕ → ℝ) (hx : ∀ i, i + 1 < n → x i ≤ x (i + 1))
    {ymax : ℝ} (hy : 0 < ymax) {m i : ℕ} (hi : i + 1 < m) {h : ℝ}
    (h0 : levels ymax m i ≤ h) (h1 : h ≤ levels ymax m (i + 1)) :
    transectSum segA n x y h ≤ lookupArea n x y ymax m h ∧
    lookupArea n x y ymax m h ≤ transectSum segA n x y h +
      (levels ymax m (i + 1) - levels ymax m i) *
        (transectSum segB n x y (levels ymax m (i + 1)) - transectSum segB n x y (levels ymax m i)) := by
  have hlt := levels_sorted hy m i (i + 1) (by omega) hi
  unfold lookupArea
  rw [C38_linear_chord (levels_sorted hy m) hi h0 h1]
  have g1 := C63_transect_growth n x y hx (levels ymax m i) h
  have g2 := C63_transect_growth n x y hx h (levels ymax m (i + 1))
  have g3 := C63_transect_growth n x y hx (levels ymax m i) (levels ymax m (i + 1))
  generalize levels ymax m i = p at *
  generalize levels ymax m (i + 1) = q at *
  generalize transectSum segA n x y p = Ap at *
  generalize transectSum segA n x y q = Aq at *
  generalize transectSum segA n x y h = Ah at *
  generalize transectSum segB n x y p = Bp at *
  generalize transectSum segB n x y q = Bq at *
  generalize transectSum segB n x y h = Bh at *
  have hd : 0 < q - p := by linarith
  obtain ⟨t, ht⟩ : ∃ t, t = (h - p) / (q - p) := ⟨_, rfl⟩
  have ht0 : 0 ≤ t := by rw [ht]; exact div_nonneg (by linarith) hd.le
  have ht1 : t ≤ 1 := by rw [ht, div_le_one hd]; linarith
  have hp : h - p = t * (q - p) := by rw [ht]; field_simp
  have hq : q - h = (1 - t) * (q - p) := by linarith
  rw [← ht]
  rw [hp] at g1
  rw [hq] at g2
  constructor
  · nlinarith [mul_le_mul_of_nonneg_left g1.2 (sub_nonneg.mpr ht1), mul_le_mul_of_nonneg_left g2.1 ht0]
  · have hBpq : 0 ≤ Bq - Bp := by
      by_contra hneg
      push Not at hneg
      nlinarith [g3.1, g3.2, mul_pos_of_neg_of_neg hneg (neg_neg_of_pos hd)]
    nlinarith [mul_le_mul_of_nonneg_left g3.2 ht0, g1.1, mul_nonneg (sub_nonneg.mpr ht1)
      (mul_nonneg hBpq hd.le)]

/-- **C63 (lookup above the section).** Above the highest station the looked-up area and width stay at
their values at the highest station: the table does not extrapolate. -/
theorem C63_lookup_above (n : ℕ) (x y : ℕ → ℝ) {ymax : ℝ} (hy : 0 < ymax) {m : ℕ} (hm : 2 ≤ m)
    {h : ℝ} (hh : ymax < h) :
    lookupArea n x y ymax m h = transectSum segA n x y ymax ∧
    lookupWidth n x y ymax m h = transectSum segB n x y ymax := by
  have hall : ∀ i, i < m → levels ymax m i < h := by
    intro i hi
    refine lt_of_le_of_lt ?_ hh
    rcases Nat.lt_or_ge i (m - 1) with h' | h'
    · exact (levels_sorted hy m i (m - 1) h' (by omega)).le.trans (levels_last hm).le
    · obtain rfl : i = m - 1 := by omega
      rw [levels_last hm]
  unfold lookupArea lookupWidth
  rw [C38_after _ (by omega) hall, C38_after _ (by omega) hall, levels_last hm]
  exact ⟨rfl, rfl⟩

/-- A V-shaped ditch sampled at 3 levels, between the first two. -/
example : levels 1 3 0 ≤ (1 / 4 : ℝ) ∧ (1 / 4 : ℝ) ≤ levels 1 3 1 := by
  norm_num [levels]

end Pipedream.Geometry
