import Verif.IrregularModel
import Verif.TransectProps
import Verif.InterpProps
import Mathlib.Algebra.Order.BigOperators.Group.Finset

/-!
# C128: irregular sections of the pure-Python library

The reference is the polygon through the sampled stations: its exact area and water-surface width are the sums over
segments of C63 (`transectSum segA`, `transectSum segB`).
-/

namespace Pipedream.Irregular

open Pipedream.Link (PyErr)
open Pipedream.Interp
open Pipedream.Geometry

/-- A usable survey: at least two stations in order, at least two sampling points each way, not flat. -/
structure Good (S : Survey) : Prop where
  p : 2 ≤ S.p
  sorted : Interp.Sorted S.p S.x
  horiz : 2 ≤ S.horiz
  vert : 2 ≤ S.vert
  relief : S.ymin < S.ymax

variable {S : Survey}

theorem linspace_succ (a b : ℝ) (n i : ℕ) : linspace a b n (i + 1) - linspace a b n i = (b - a) / (n - 1 : ℕ) := by
  unfold linspace
  push_cast
  ring

theorem linspace_zero (a b : ℝ) (n : ℕ) : linspace a b n 0 = a := by simp [linspace]

theorem linspace_last (a b : ℝ) {n : ℕ} (hn : 2 ≤ n) : linspace a b n (n - 1) = b := by
  unfold linspace
  have : ((n - 1 : ℕ) : ℝ) ≠ 0 := by
    have : n - 1 ≠ 0 := by omega
    exact_mod_cast this
  field_simp
  ring

theorem linspace_sorted {a b : ℝ} (h : a < b) (n : ℕ) : Interp.Sorted n (linspace a b n) := by
  intro i j hij hj
  have h1 : (0 : ℝ) < (n - 1 : ℕ) := by
    have : 0 < n - 1 := by omega
    exact_mod_cast this
  have h2 : (i : ℝ) < j := by exact_mod_cast hij
  unfold linspace
  have := mul_lt_mul_of_pos_right h2 (div_pos (sub_pos.mpr h) h1)
  linarith

namespace Good

theorem span (g : Good S) : S.xmin < S.xmax := by
  have h1 : S.xmin ≤ S.x 0 := tabMin_le _ _ _ (Nat.zero_le _)
  have h2 : S.x (S.p - 1) ≤ S.xmax := le_tabMax _ _ _ le_rfl
  have h3 := g.sorted 0 (S.p - 1) (by have := g.p; omega) (by have := g.p; omega)
  linarith

theorem step_pos (g : Good S) : 0 < S.xstep := by
  unfold Survey.xstep
  have h1 : (0 : ℝ) < (S.horiz - 1 : ℕ) := by
    have : 0 < S.horiz - 1 := by have := g.horiz; omega
    exact_mod_cast this
  exact div_pos (sub_pos.mpr g.span) h1

theorem xx_succ (S : Survey) (i : ℕ) : S.xx (i + 1) - S.xx i = S.xstep := linspace_succ _ _ _ _

/-- Sampled elevations lie between the lowest and the highest surveyed one. -/
theorem yy_range (g : Good S) (i : ℕ) : S.ymin ≤ S.yy i ∧ S.yy i ≤ S.ymax :=
  C38_range .linear (by have := g.p; omega) (fun j hj => ⟨tabMin_le _ _ _ (by omega), le_tabMax _ _ _ (by omega)⟩)

end Good

/-! ### Area -/

/-- What the trapezoidal rule adds on one stretch. -/
theorem trap_seg {dx : ℝ} (hdx : 0 < dx) (a b w : ℝ) :
    segArea dx (min a b) (max a b) w ≤ dx * (max (w - b) 0 + max (w - a) 0) / 2 ∧
    (segArea dx (min a b) (max a b) w = dx * (max (w - b) 0 + max (w - a) 0) / 2 ↔ ¬ (min a b < w ∧ w < max a b)) := by
  have key : ∀ lo hi, lo ≤ hi → segArea dx lo hi w ≤ dx * (max (w - hi) 0 + max (w - lo) 0) / 2 ∧
      (segArea dx lo hi w = dx * (max (w - hi) 0 + max (w - lo) 0) / 2 ↔ ¬ (lo < w ∧ w < hi)) := by
    intro lo hi hlh
    unfold segArea
    split_ifs with h1 h2
    · rw [max_eq_right (by linarith), max_eq_right (by linarith)]
      simp only [add_zero, mul_zero, zero_div, le_refl, true_and]
      exact ⟨fun _ h => absurd h.1 (by linarith), fun _ => trivial⟩
    · rw [max_eq_left (by linarith), max_eq_left (by linarith)]
      have e : dx * (w - (lo + hi) / 2) = dx * (w - hi + (w - lo)) / 2 := by ring
      rw [e]
      exact ⟨le_rfl, ⟨fun _ h => absurd h.2 (by linarith), fun _ => rfl⟩⟩
    · push Not at h1 h2
      rw [max_eq_right (by linarith), max_eq_left (by linarith)]
      have hd : 0 < hi - lo := by linarith
      have e : dx * (0 + (w - lo)) / 2 - dx * (w - lo) ^ 2 / (2 * (hi - lo))
          = dx * (w - lo) * (hi - w) / (2 * (hi - lo)) := by
        field_simp; ring
      have hnn : 0 ≤ dx * (w - lo) * (hi - w) / (2 * (hi - lo)) := by
        apply div_nonneg (mul_nonneg (mul_nonneg hdx.le (by linarith)) (by linarith)) (by linarith)
      refine ⟨by linarith, ?_⟩
      constructor
      · rintro h ⟨h3, -⟩
        have : 0 < dx * (w - lo) * (hi - w) / (2 * (hi - lo)) := by
          apply div_pos (mul_pos (mul_pos hdx (by linarith)) (by linarith)) (by linarith)
        linarith
      · intro h
        have h3 : lo = w := le_antisymm h1 (not_lt.mp fun h4 => h ⟨h4, h2⟩)
        rw [← h3]; ring
  rcases le_total a b with h | h
  · rw [min_eq_left h, max_eq_right h]; exact key a b h
  · rw [min_eq_right h, max_eq_left h, add_comm (max (w - b) 0)]; exact key b a h

/-- **C128 (area).** The tabulated area is never below the area of the section through the sampled stations, and equals it
exactly at the levels which no stretch between two neighbouring stations crosses. -/
theorem C128_area_iff (g : Good S) (w : ℝ) :
    transectSum segA S.horiz S.xx S.yy w ≤ S.areaAt w ∧
    (transectSum segA S.horiz S.xx S.yy w = S.areaAt w ↔
      ∀ i, i + 1 < S.horiz → ¬ (min (S.yy i) (S.yy (i + 1)) < w ∧ w < max (S.yy i) (S.yy (i + 1)))) := by
  have hs := g.step_pos
  have hle : ∀ i, S.xx i ≤ S.xx (i + 1) := fun i => by have := Good.xx_succ S i; linarith
  have hseg : ∀ i, segA w (S.xx i) (S.xx (i + 1)) (S.yy i) (S.yy (i + 1))
      = segArea S.xstep (min (S.yy i) (S.yy (i + 1))) (max (S.yy i) (S.yy (i + 1))) w := by
    intro i; rw [segA_eq _ _ _ _ _ (hle i), Good.xx_succ]
  rw [transectSum_eq]
  unfold Survey.areaAt trapz Survey.hh
  simp only [hseg, Good.xx_succ]
  have hall := fun i => trap_seg hs (S.yy i) (S.yy (i + 1)) w
  refine ⟨Finset.sum_le_sum fun i _ => (hall i).1, ?_⟩
  rw [Finset.sum_eq_sum_iff_of_le (fun i _ => (hall i).1)]
  constructor
  · intro h i hi
    exact (hall i).2.mp (h i (Finset.mem_range.mpr (by omega)))
  · intro h i hi
    exact (hall i).2.mpr (h i (by have := Finset.mem_range.mp hi; omega))

/-- Bank-full the area is exact, and below the section it is zero. -/
theorem C128_area_ends_partial (g : Good S) :
    S.areaAt S.ymax = transectSum segA S.horiz S.xx S.yy S.ymax ∧ S.areaAt S.ymin = 0 := by
  constructor
  · exact ((C128_area_iff g S.ymax).2.mpr fun i _ h => absurd h.2
      (not_lt.mpr (max_le (g.yy_range i).2 (g.yy_range (i + 1)).2))).symm
  · unfold Survey.areaAt trapz Survey.hh
    apply Finset.sum_eq_zero
    intro i _
    rw [max_eq_right (by linarith [(g.yy_range (i + 1)).1]), max_eq_right (by linarith [(g.yy_range i).1])]
    ring

/-- The tabulated area as a sum over stations: the two ends count half. -/
theorem areaAt_eq (g : Good S) (w : ℝ) :
    S.areaAt w = S.xstep * (∑ i ∈ Finset.range S.horiz, S.hh w i) - S.xstep / 2 * (S.hh w 0 + S.hh w (S.horiz - 1)) := by
  unfold Survey.areaAt trapz
  simp only [Good.xx_succ]
  obtain ⟨n, hn⟩ : ∃ n, S.horiz = n + 1 := ⟨S.horiz - 1, by have := g.horiz; omega⟩
  rw [hn, Nat.add_sub_cancel]
  clear hn
  induction n with
  | zero => simp; ring
  | succ n ih =>
    rw [Finset.sum_range_succ, ih, Finset.sum_range_succ _ (n + 1)]
    ring

/-! ### Width -/

/-- **C128 (rate of growth).** Between two neighbouring sampled elevations the area grows by the tabulated width times the
rise, less half a step for each end station under water. -/
theorem C128_growth (g : Good S) {w w' : ℝ} (hww : w ≤ w') (hgap : ∀ i, i < S.horiz → S.yy i ≤ w ∨ w' ≤ S.yy i) :
    S.areaAt w' - S.areaAt w = (w' - w) * (S.widthAt w -
      S.xstep / 2 * ((if S.yy 0 ≤ w then 1 else 0) + (if S.yy (S.horiz - 1) ≤ w then 1 else 0))) := by
  have hd : ∀ i, i < S.horiz → S.hh w' i - S.hh w i = (w' - w) * (if S.yy i ≤ w then 1 else 0) := by
    intro i hi
    unfold Survey.hh
    rcases hgap i hi with h | h
    · rw [if_pos h, max_eq_left (by linarith), max_eq_left (by linarith)]; ring
    · rcases eq_or_lt_of_le hww with rfl | hlt
      · ring
      · rw [if_neg (by linarith), max_eq_right (by linarith), max_eq_right (by linarith)]; ring
  have hsum : ∑ i ∈ Finset.range S.horiz, S.hh w' i - ∑ i ∈ Finset.range S.horiz, S.hh w i
      = (w' - w) * ∑ i ∈ Finset.range S.horiz, (if S.yy i ≤ w then (1 : ℝ) else 0) := by
    rw [← Finset.sum_sub_distrib, Finset.mul_sum]
    exact Finset.sum_congr rfl fun i hi => hd i (Finset.mem_range.mp hi)
  have hw : S.widthAt w = S.xstep * ∑ i ∈ Finset.range S.horiz, (if S.yy i ≤ w then (1 : ℝ) else 0) := by
    unfold Survey.widthAt
    rw [Finset.mul_sum]
    refine Finset.sum_congr rfl fun i _ => ?_
    by_cases h : S.yy i ≤ w <;> simp [h]
  have h0 := hd 0 (by have := g.horiz; omega)
  have h1 := hd (S.horiz - 1) (by have := g.horiz; omega)
  rw [areaAt_eq g, areaAt_eq g, hw]
  linear_combination S.xstep * hsum - S.xstep / 2 * h0 - S.xstep / 2 * h1

/-- **C128.** The tabulated width is the rate of growth of the tabulated area exactly while both end stations are dry. -/
theorem C128_width_iff (g : Good S) {w w' : ℝ} (hww : w < w')
    (hgap : ∀ i, i < S.horiz → S.yy i ≤ w ∨ w' ≤ S.yy i) :
    S.areaAt w' - S.areaAt w = (w' - w) * S.widthAt w ↔ w < S.yy 0 ∧ w < S.yy (S.horiz - 1) := by
  rw [C128_growth g hww.le hgap, mul_right_inj' (sub_pos.mpr hww).ne', sub_eq_self]
  have hs := g.step_pos
  by_cases h0 : S.yy 0 ≤ w <;> by_cases h1 : S.yy (S.horiz - 1) ≤ w
  all_goals simp [h0, h1, hs.ne']
  push Not at h0 h1
  exact ⟨h0, h1⟩

/-- **C128 (bank-full width).** The tabulated width at the highest level is the span times `horiz_points / (horiz_points - 1)`:
more than the section is wide. -/
theorem C128_bankfull_width (g : Good S) :
    S.widthAt S.ymax = (S.xmax - S.xmin) * (S.horiz / (S.horiz - 1 : ℕ)) ∧ S.xmax - S.xmin < S.widthAt S.ymax := by
  have hw : S.widthAt S.ymax = S.horiz * S.xstep := by
    unfold Survey.widthAt
    rw [Finset.sum_congr rfl (fun i _ => if_pos (g.yy_range i).2)]
    simp
  have hn : (0 : ℝ) < (S.horiz - 1 : ℕ) := by
    have : 0 < S.horiz - 1 := by have := g.horiz; omega
    exact_mod_cast this
  have e : S.widthAt S.ymax = (S.xmax - S.xmin) * (S.horiz / (S.horiz - 1 : ℕ)) := by
    rw [hw, Survey.xstep]; ring
  refine ⟨e, ?_⟩
  rw [e]
  have : (1 : ℝ) < S.horiz / (S.horiz - 1 : ℕ) := by
    rw [one_lt_div hn]
    have : S.horiz - 1 < S.horiz := by have := g.horiz; omega
    exact_mod_cast this
  nlinarith [g.span]

/-- **C128 (perimeter).** The tabulated perimeter is at least a step for every station under water, zero at the lowest level,
and at least the part of the width that lies under water. -/
theorem C128_perimeter (g : Good S) :
    S.perimeterAt S.ymin = 0 ∧
    ∀ w, ∑ i ∈ Finset.range S.horiz, (if S.yy i < w then S.xstep else 0) ≤ S.perimeterAt w := by
  constructor
  · have hz : ∀ i, S.hh S.ymin i = 0 := fun i => max_eq_right (by linarith [(g.yy_range i).1])
    unfold Survey.perimeterAt
    apply Finset.sum_eq_zero
    intro i _
    simp [gradient, hz]
  · intro w
    unfold Survey.perimeterAt
    refine Finset.sum_le_sum fun i _ => ?_
    have hc : S.hh w i > 0 ↔ S.yy i < w := by simp [Survey.hh]
    simp only [hc]
    apply Real.le_sqrt_of_sq_le
    nlinarith [sq_nonneg (gradient S.horiz (S.hh w) i)]

/-- Length of the stretch of the bed after station `i` (specification). -/
noncomputable def bed (S : Survey) (i : ℕ) : ℝ := Real.sqrt ((S.xx (i + 1) - S.xx i) ^ 2 + (S.yy (i + 1) - S.yy i) ^ 2)

theorem sqrt_mid (x a b : ℝ) :
    Real.sqrt (x ^ 2 + ((a + b) / 2) ^ 2) ≤ (Real.sqrt (x ^ 2 + a ^ 2) + Real.sqrt (x ^ 2 + b ^ 2)) / 2 := by
  have ha := Real.sqrt_nonneg (x ^ 2 + a ^ 2)
  have hb := Real.sqrt_nonneg (x ^ 2 + b ^ 2)
  have ha2 := Real.sq_sqrt (by positivity : 0 ≤ x ^ 2 + a ^ 2)
  have hb2 := Real.sq_sqrt (by positivity : 0 ≤ x ^ 2 + b ^ 2)
  generalize Real.sqrt (x ^ 2 + a ^ 2) = p at *
  generalize Real.sqrt (x ^ 2 + b ^ 2) = q at *
  have hpq : x ^ 2 + a * b ≤ p * q := by
    apply le_of_sq_le_sq _ (by positivity)
    rw [mul_pow, ha2, hb2]
    nlinarith [sq_nonneg (x * (a - b))]
  apply Real.sqrt_le_iff.mpr
  constructor
  · positivity
  · nlinarith

/-- The terms of the perimeter above the banks. -/
theorem term_wet (g : Good S) {w : ℝ} (hw : S.ymax < w) (i : ℕ) :
    Real.sqrt ((if S.hh w i > 0 then S.xstep else 0) ^ 2 + gradient S.horiz (S.hh w) i ^ 2) =
      Real.sqrt (S.xstep ^ 2 + gradient S.horiz S.yy i ^ 2) := by
  have hh : ∀ i, S.hh w i = w - S.yy i := fun i => max_eq_left (by linarith [(g.yy_range i).2])
  have hp : S.hh w i > 0 := by rw [hh]; linarith [(g.yy_range i).2]
  rw [if_pos hp]
  have hg : gradient S.horiz (S.hh w) i = - gradient S.horiz S.yy i := by
    unfold gradient
    simp only [hh]
    split_ifs <;> ring
  rw [hg, neg_sq]

/-- **C128 (perimeter above the banks).** It is at most the length of the bed and half of the first and of the last
stretch. -/
theorem C128_perimeter_above (g : Good S) {w : ℝ} (hw : S.ymax < w) :
    S.perimeterAt w ≤ (∑ i ∈ Finset.range (S.horiz - 1), bed S i) + (bed S 0 + bed S (S.horiz - 2)) / 2 := by
  have hb : ∀ i, bed S i = Real.sqrt (S.xstep ^ 2 + (S.yy (i + 1) - S.yy i) ^ 2) := fun i => by
    unfold bed; rw [Good.xx_succ]
  have hle : ∀ i ∈ Finset.range S.horiz,
      Real.sqrt ((if S.hh w i > 0 then S.xstep else 0) ^ 2 + gradient S.horiz (S.hh w) i ^ 2) ≤
        (bed S (i - 1) + bed S (min i (S.horiz - 2))) / 2 := by
    intro i hi
    have hi := Finset.mem_range.mp hi
    rw [term_wet g hw i]
    have h2 := g.horiz
    unfold gradient
    by_cases h0 : i = 0
    · subst h0
      rw [if_pos rfl, Nat.zero_min, hb 0]
      simp
    · rw [if_neg h0]
      by_cases h1 : i = S.horiz - 1
      · have e1 : i - 1 = S.horiz - 2 := by omega
        have e2 : min i (S.horiz - 2) = S.horiz - 2 := by omega
        have e3 : S.horiz - 2 + 1 = S.horiz - 1 := by omega
        rw [if_pos h1, e1, e2, hb, e3]
        simp
      · have e2 : min i (S.horiz - 2) = i := by omega
        have e3 : i - 1 + 1 = i := by omega
        rw [if_neg h1, e2, hb, hb, e3]
        have := sqrt_mid S.xstep (S.yy i - S.yy (i - 1)) (S.yy (i + 1) - S.yy i)
        have e4 : (S.yy i - S.yy (i - 1) + (S.yy (i + 1) - S.yy i)) / 2 = (S.yy (i + 1) - S.yy (i - 1)) / 2 := by ring
        rwa [e4] at this
  unfold Survey.perimeterAt
  refine (Finset.sum_le_sum hle).trans (le_of_eq ?_)
  obtain ⟨n, hn⟩ : ∃ n, S.horiz = n + 2 := ⟨S.horiz - 2, by have := g.horiz; omega⟩
  rw [hn, show n + 2 - 1 = n + 1 from rfl, show n + 2 - 2 = n from rfl, ← Finset.sum_div, Finset.sum_add_distrib]
  have s1 : ∑ i ∈ Finset.range (n + 2), bed S (i - 1) = bed S 0 + ∑ i ∈ Finset.range (n + 1), bed S i := by
    rw [Finset.sum_range_succ']
    simp [add_comm]
  have s2 : ∑ i ∈ Finset.range (n + 2), bed S (min i n) = (∑ i ∈ Finset.range (n + 1), bed S i) + bed S n := by
    rw [Finset.sum_range_succ]
    congr 1
    · refine Finset.sum_congr rfl fun i hi => ?_
      rw [min_eq_left (by have := Finset.mem_range.mp hi; omega)]
    · rw [min_eq_right (by omega)]
  rw [s1, s2]
  ring

/-- **C128 (perimeter of a straight bed).** Above a bed of constant slope between the stations the tabulated perimeter is
`n / (n - 1)` times the length of the bed, for `n` stations. -/
theorem C128_straight_bed (g : Good S) {w c : ℝ} (hw : S.ymax < w) (hc : ∀ i, i + 1 < S.horiz → S.yy (i + 1) - S.yy i = c) :
    S.perimeterAt w * (S.horiz - 1) = S.horiz * ∑ i ∈ Finset.range (S.horiz - 1), bed S i ∧
    ∑ i ∈ Finset.range (S.horiz - 1), bed S i < S.perimeterAt w := by
  obtain ⟨n, hn⟩ : ∃ n, S.horiz = n + 2 := ⟨S.horiz - 2, by have := g.horiz; omega⟩
  have hb : ∀ i ∈ Finset.range (S.horiz - 1), bed S i = Real.sqrt (S.xstep ^ 2 + c ^ 2) := fun i hi => by
    unfold bed; rw [Good.xx_succ, hc i (by have := Finset.mem_range.mp hi; omega)]
  have hg : ∀ i, i < S.horiz → gradient S.horiz S.yy i = c := by
    intro i hi
    unfold gradient
    split_ifs with h0 h1
    · exact hc 0 (by omega)
    · have := hc (S.horiz - 2) (by omega)
      rwa [show S.horiz - 2 + 1 = S.horiz - 1 by omega] at this
    · have a := hc (i - 1) (by omega)
      have b := hc i (by omega)
      rw [show i - 1 + 1 = i by omega] at a
      linarith
  have hP : S.perimeterAt w = S.horiz * Real.sqrt (S.xstep ^ 2 + c ^ 2) := by
    unfold Survey.perimeterAt
    rw [Finset.sum_congr rfl (fun i hi => by
      rw [term_wet g hw i, hg i (Finset.mem_range.mp hi)])]
    simp
  rw [Finset.sum_congr rfl hb, hP]
  have hpos : 0 < Real.sqrt (S.xstep ^ 2 + c ^ 2) := Real.sqrt_pos.mpr (by have := g.step_pos; positivity)
  rw [hn, Finset.sum_const, Finset.card_range, show n + 2 - 1 = n + 1 from rfl]
  simp only [nsmul_eq_mul]
  push_cast
  constructor
  · ring
  · nlinarith

/-! ### Lookups -/

theorem level_eq (S : Survey) (h1 h2 : ℝ) : S.level h1 h2 = min (max ((h1 + h2) / 2) 0) S.ymax := by
  simp only [Survey.level]
  have e : (if (h1 + h2) / 2 < 0 then 0 else (h1 + h2) / 2) = max ((h1 + h2) / 2) 0 := by
    split_ifs with h
    · rw [max_eq_right h.le]
    · rw [max_eq_left (not_lt.mp h)]
  rw [e]
  split_ifs with h
  · rw [min_eq_right h.le]
  · rw [min_eq_left (not_lt.mp h)]

theorem h_ends (g : Good S) : S.h 0 = S.ymin ∧ S.h (S.vert - 1) = S.ymax :=
  ⟨linspace_zero _ _ _, linspace_last _ _ g.vert⟩

theorem interp1d_eq (g : Good S) (ys : ℕ → ℝ) (h1 h2 : ℝ) :
    interp1d S.vert S.h ys (S.level h1 h2) = if max ((h1 + h2) / 2) 0 < S.ymin then .error .valueError
      else .ok (interpolate .linear S.vert S.h ys (S.level h1 h2)) := by
  unfold interp1d
  have hl := level_eq S h1 h2
  have hc : (S.level h1 h2 < S.h 0 ∨ S.h (S.vert - 1) < S.level h1 h2) ↔ max ((h1 + h2) / 2) 0 < S.ymin := by
    rw [(h_ends g).1, (h_ends g).2, hl, min_lt_iff]
    constructor
    · rintro ((h | h) | h)
      · exact h
      · exact absurd g.relief (not_lt.mpr h.le)
      · exact absurd h (not_lt.mpr (min_le_right _ _))
    · exact fun h => Or.inl (Or.inl h)
  by_cases h : max ((h1 + h2) / 2) 0 < S.ymin
  · rw [if_pos h, if_pos (hc.mpr h)]
  · rw [if_neg h, if_neg (fun h' => h (hc.mp h'))]

/-- **C128 (datum).** The four lookups raise a `ValueError` exactly when the mean depth, taken as an elevation, is below the
lowest surveyed point: an empty link raises exactly when the whole survey lies above elevation zero. -/
theorem C128_raises_iff (g : Good S) (h1 h2 : ℝ) :
    (S.A h1 h2 = .error .valueError ↔ max ((h1 + h2) / 2) 0 < S.ymin) ∧
    (S.Pe h1 h2 = .error .valueError ↔ max ((h1 + h2) / 2) 0 < S.ymin) ∧
    (S.R h1 h2 = .error .valueError ↔ max ((h1 + h2) / 2) 0 < S.ymin) ∧
    (S.B h1 h2 = .error .valueError ↔ max ((h1 + h2) / 2) 0 < S.ymin) := by
  have key : ∀ ys, interp1d S.vert S.h ys (S.level h1 h2) = .error .valueError ↔ max ((h1 + h2) / 2) 0 < S.ymin := by
    intro ys
    rw [interp1d_eq g]
    split_ifs with h
    · simp [h]
    · simp [h]
  exact ⟨key _, key _, key _, key _⟩

/-- A survey whose highest point is at or below elevation zero is bank-full at every depth, dry links included. -/
theorem C128_always_full (g : Good S) (hy : S.ymax ≤ 0) (h1 h2 : ℝ) :
    S.A h1 h2 = .ok (S.areaAt S.ymax) ∧ S.B h1 h2 = .ok (S.widthAt S.ymax) := by
  have hl : S.level h1 h2 = S.h (S.vert - 1) := by
    rw [level_eq, (h_ends g).2, min_eq_right (hy.trans (le_max_right _ _))]
  have hr : ¬ max ((h1 + h2) / 2) 0 < S.ymin := by
    intro h
    have := le_max_right ((h1 + h2) / 2) 0
    linarith [g.relief]
  unfold Survey.A Survey.B
  rw [interp1d_eq g, interp1d_eq g, if_neg hr, if_neg hr, hl]
  have hs := linspace_sorted g.relief S.vert
  have hv : S.vert - 1 < S.vert := by have := g.vert; omega
  have e := fun ys => C38_sample_reproduced .linear (fp := ys) (xp := S.h) hs hv
  rw [e, e, (h_ends g).2]
  exact ⟨rfl, rfl⟩

/-- **C128 (partial: surveys measured from their lowest point).** With the lowest point at elevation zero no lookup raises, an
empty link has no area, above the banks area and width stay bank-full, the area at every level of the table is the
tabulated one, and a larger depth never gives a smaller area. Missing: other datums. -/
theorem C128_lookup_partial (g : Good S) (h0 : S.ymin = 0) :
    (∀ h1 h2, ∃ a, S.A h1 h2 = .ok a ∧ 0 ≤ a) ∧
    (∀ h1 h2, h1 + h2 ≤ 0 → S.A h1 h2 = .ok 0) ∧
    (∀ h1 h2, 2 * S.ymax ≤ h1 + h2 → S.A h1 h2 = .ok (S.areaAt S.ymax)) ∧
    (∀ j, j < S.vert → S.A (S.h j) (S.h j) = .ok (S.areaAt (S.h j))) ∧
    (∀ h1 h2 h1' h2' a a', h1 + h2 ≤ h1' + h2' → S.A h1 h2 = .ok a → S.A h1' h2' = .ok a' → a ≤ a') := by
  have hs := linspace_sorted g.relief S.vert
  have hr : ∀ h1 h2 : ℝ, ¬ max ((h1 + h2) / 2) 0 < S.ymin := fun h1 h2 h => by
    have := le_max_right ((h1 + h2) / 2) 0
    linarith
  have hA : ∀ h1 h2, S.A h1 h2 = .ok (interpolate .linear S.vert S.h (fun j => S.areaAt (S.h j)) (S.level h1 h2)) := by
    intro h1 h2
    unfold Survey.A
    rw [interp1d_eq g, if_neg (hr h1 h2)]
  have hnode : ∀ j, j < S.vert → interpolate .linear S.vert S.h (fun j => S.areaAt (S.h j)) (S.h j) = S.areaAt (S.h j) :=
    fun j hj => C38_sample_reproduced .linear (xp := S.h) hs hj
  have hmono : ∀ w w', w ≤ w' → S.areaAt w ≤ S.areaAt w' := by
    intro w w' h
    unfold Survey.areaAt trapz Survey.hh
    refine Finset.sum_le_sum fun i _ => ?_
    rw [Good.xx_succ]
    have := g.step_pos
    have a1 : max (w - S.yy (i + 1)) 0 ≤ max (w' - S.yy (i + 1)) 0 := max_le_max (by linarith) le_rfl
    have a2 : max (w - S.yy i) 0 ≤ max (w' - S.yy i) 0 := max_le_max (by linarith) le_rfl
    nlinarith
  have hpos : ∀ j, 0 ≤ S.areaAt (S.h j) := by
    intro j
    unfold Survey.areaAt trapz Survey.hh
    refine Finset.sum_nonneg fun i _ => ?_
    rw [Good.xx_succ]
    have := g.step_pos
    have a1 := le_max_right (S.h j - S.yy (i + 1)) 0
    have a2 := le_max_right (S.h j - S.yy i) 0
    exact div_nonneg (mul_nonneg this.le (add_nonneg a1 a2)) two_pos.le
  have hj : ∀ j, j < S.vert → 0 ≤ S.h j ∧ S.h j ≤ S.ymax := by
    intro j hj
    constructor
    · rcases Nat.eq_zero_or_pos j with rfl | hp
      · rw [(h_ends g).1, h0]
      · have := hs 0 j hp hj
        have h3 : S.h 0 < S.h j := this
        rw [(h_ends g).1, h0] at h3
        exact h3.le
    · rcases Nat.lt_or_ge j (S.vert - 1) with hp | hp
      · have := hs j (S.vert - 1) hp (by omega)
        rw [linspace_last _ _ g.vert] at this
        exact this.le
      · obtain rfl : j = S.vert - 1 := by omega
        rw [(h_ends g).2]
  refine ⟨?_, ?_, ?_, ?_, ?_⟩
  · intro h1 h2
    refine ⟨_, hA h1 h2, ?_⟩
    refine (C38_range .linear (hi := ∑ j ∈ Finset.range S.vert, S.areaAt (S.h j)) (by have := g.vert; omega)
      (fun i hi => ⟨hpos i, ?_⟩)).1
    exact Finset.single_le_sum (f := fun j => S.areaAt (S.h j)) (fun j _ => hpos j) (Finset.mem_range.mpr hi)
  · intro h1 h2 h
    have hl : S.level h1 h2 = S.h 0 := by
      rw [level_eq, max_eq_right (by linarith), min_eq_left (by linarith [g.relief]), (h_ends g).1, h0]
    rw [hA, hl, hnode 0 (by have := g.vert; omega), (h_ends g).1, (C128_area_ends_partial g).2]
  · intro h1 h2 h
    have hl : S.level h1 h2 = S.h (S.vert - 1) := by
      rw [level_eq, min_eq_right (le_max_of_le_left (by linarith)), (h_ends g).2]
    rw [hA, hl, hnode _ (by have := g.vert; omega), (h_ends g).2]
  · intro j hj'
    have hl : S.level (S.h j) (S.h j) = S.h j := by
      rw [level_eq, add_self_div_two, max_eq_left (hj j hj').1, min_eq_left (hj j hj').2]
    rw [hA, hl, hnode j hj']
  · intro h1 h2 h1' h2' a a' hle ha ha'
    rw [hA] at ha ha'
    cases ha
    cases ha'
    refine interpolate_mono ?_ ?_
    · intro i j hij hjn
      apply hmono
      rcases hij.lt_or_eq with h | h
      · exact (hs i j h hjn).le
      · rw [h]
    · rw [level_eq, level_eq]
      exact min_le_min (max_le_max (by linarith) le_rfl) le_rfl

/-! ### A case -/

/-- **C128 (which table a lookup reads).** With the lowest point at elevation zero, at every level of the tables the
hydraulic radius returned is the area returned over the perimeter returned (zero without a perimeter), and the width
returned counts a step for every station at or under the level. -/
theorem C128_levels_partial (g : Good S) (h0 : S.ymin = 0) (j : ℕ) (hj : j < S.vert) :
    ∃ a p r b, S.A (S.h j) (S.h j) = .ok a ∧ S.Pe (S.h j) (S.h j) = .ok p ∧ S.R (S.h j) (S.h j) = .ok r ∧
      S.B (S.h j) (S.h j) = .ok b ∧ a = S.areaAt (S.h j) ∧ p = S.perimeterAt (S.h j) ∧
      (0 < p → r * p = a) ∧ (p = 0 → r = 0) ∧
      b = ∑ i ∈ Finset.range S.horiz, if S.yy i ≤ S.h j then S.xstep else 0 := by
  have hs := linspace_sorted g.relief S.vert
  have hr : ¬ max ((S.h j + S.h j) / 2) 0 < S.ymin := fun h => by
    have := le_max_right ((S.h j + S.h j) / 2) 0
    linarith
  have hlo : 0 ≤ S.h j := by
    have : S.h 0 ≤ S.h j := by
      rcases Nat.eq_zero_or_pos j with h | h
      · rw [h]
      · exact (hs 0 j h hj).le
    rwa [(h_ends g).1, h0] at this
  have hhi : S.h j ≤ S.ymax := by
    have : S.h j ≤ S.h (S.vert - 1) := by
      rcases Nat.lt_or_ge j (S.vert - 1) with h | h
      · exact (hs j (S.vert - 1) h (by omega)).le
      · rw [show j = S.vert - 1 by omega]
    rwa [(h_ends g).2] at this
  have hl : S.level (S.h j) (S.h j) = S.h j := by
    rw [level_eq, add_self_div_two, max_eq_left hlo, min_eq_left hhi]
  have e : ∀ ys, interp1d S.vert S.h ys (S.level (S.h j) (S.h j)) = .ok (ys j) := by
    intro ys
    rw [interp1d_eq g, if_neg hr, hl]
    congr 1
    exact C38_sample_reproduced .linear (fp := ys) (xp := S.h) hs hj
  refine ⟨_, _, _, _, e _, e _, e _, e _, rfl, rfl, fun hp => ?_, fun hp => ?_, rfl⟩
  · simp only [Survey.radiusAt, gt_iff_lt, hp, if_true]
    exact div_mul_cancel₀ _ hp.ne'
  · simp [Survey.radiusAt, hp]

/-- A ditch surveyed at three stations, sides 1 : 1, lowest point at elevation `z`. -/
noncomputable def ditch (z : ℝ) : Survey := ⟨3, fun i => i, fun i => if i = 1 then z else z + 1, 3, 3⟩

theorem ditch_good (z : ℝ) : Good (ditch z) ∧ (ditch z).ymin = z ∧ (ditch z).ymax = z + 1 := by
  have h1 : (ditch z).ymin = z := by norm_num [Survey.ymin, ditch, tabMin]
  have h2 : (ditch z).ymax = z + 1 := by norm_num [Survey.ymax, ditch, tabMax]
  refine ⟨⟨by simp [ditch], ?_, by simp [ditch], by simp [ditch], by rw [h1, h2]; linarith⟩, h1, h2⟩
  intro i j hij _
  simpa [ditch] using hij

theorem ditch_yy (z : ℝ) (i : ℕ) (hi : i < 3) : (ditch z).yy i = if i = 1 then z else z + 1 := by
  have hx : (ditch z).xx i = (ditch z).x i := by
    norm_num [Survey.xx, linspace, Survey.xmin, Survey.xmax, ditch, tabMin, tabMax]
  unfold Survey.yy
  rw [hx]
  exact C38_sample_reproduced .linear (fp := (ditch z).y) (ditch_good z).1.sorted hi

/-- **C128 (witness).** The same ditch surveyed with its lowest point at elevation 0, 1 and −1: an empty link has area 0, raises,
and is bank-full. Half full, the table says twice the true area. -/
theorem C128_witness :
    (ditch 0).A 0 0 = .ok 0 ∧ (ditch 1).A 0 0 = .error .valueError ∧ (ditch (-1)).A 0 0 = .ok 1 ∧
    (ditch 0).areaAt (1 / 2) = 1 / 2 ∧ transectSum segA 3 (ditch 0).xx (ditch 0).yy (1 / 2) = 1 / 4 ∧
    (ditch 0).widthAt 1 = 3 := by
  have hx : ∀ z i, (ditch z).xx i = i := by
    intro z i; norm_num [Survey.xx, linspace, Survey.xmin, Survey.xmax, ditch, tabMin, tabMax]
  have hst : ∀ z, (ditch z).xstep = 1 := by
    intro z; norm_num [Survey.xstep, Survey.xmin, Survey.xmax, ditch, tabMin, tabMax]
  have hh : ∀ z, (ditch z).horiz = 3 := fun _ => rfl
  obtain ⟨g0, a0, b0⟩ := ditch_good 0
  obtain ⟨g1, a1, b1⟩ := ditch_good 1
  obtain ⟨g2, a2, b2⟩ := ditch_good (-1)
  refine ⟨(C128_lookup_partial g0 a0).2.1 0 0 (by norm_num), (C128_raises_iff g1 0 0).1.mpr (by rw [a1]; norm_num), ?_,
    ?_, ?_, ?_⟩
  · rw [(C128_always_full g2 (by rw [b2]; norm_num) 0 0).1, b2]
    congr 1
    simp only [Survey.areaAt, trapz, Survey.hh, hx, hh, Finset.sum_range_succ, Finset.sum_range_zero]
    rw [ditch_yy _ 0 (by omega), ditch_yy _ 1 (by omega), ditch_yy _ 2 (by omega)]
    norm_num
  · simp only [Survey.areaAt, trapz, Survey.hh, hx, hh, Finset.sum_range_succ, Finset.sum_range_zero]
    rw [ditch_yy _ 0 (by omega), ditch_yy _ 1 (by omega), ditch_yy _ 2 (by omega)]
    norm_num
  · rw [transectSum_eq]
    simp only [hx, Finset.sum_range_succ, Finset.sum_range_zero]
    rw [ditch_yy _ 0 (by omega), ditch_yy _ 1 (by omega), ditch_yy _ 2 (by omega)]
    norm_num [segA]
  · have := (C128_bankfull_width g0).1
    rw [b0, zero_add] at this
    rw [this]
    norm_num [Survey.xmin, Survey.xmax, ditch, tabMin, tabMax]

/-- Non-vacuous: a bank rising by 1 over 1, under more than 1 of water. -/
example : Survey.perimeterAt ⟨2, fun i => i, fun i => i, 2, 2⟩ 2 * (2 - 1) =
    2 * ∑ i ∈ Finset.range 1, bed ⟨2, fun i => i, fun i => i, 2, 2⟩ i := by
  have h1 : Survey.ymin ⟨2, fun i => i, fun i => i, 2, 2⟩ = 0 := by norm_num [Survey.ymin, tabMin]
  have h2 : Survey.ymax ⟨2, fun i => i, fun i => i, 2, 2⟩ = 1 := by norm_num [Survey.ymax, tabMax]
  have g : Good ⟨2, fun i => i, fun i => i, 2, 2⟩ :=
    ⟨le_rfl, fun i j hij _ => by simpa using hij, le_rfl, le_rfl, by rw [h1, h2]; norm_num⟩
  have := (C128_straight_bed g (w := 2) (c := Survey.yy ⟨2, fun i => i, fun i => i, 2, 2⟩ (0 + 1)
    - Survey.yy ⟨2, fun i => i, fun i => i, 2, 2⟩ 0) (by rw [h2]; norm_num)
    (fun i hi => by
      have hi : i + 1 < 2 := hi
      rw [show i = 0 by omega])).1
  simpa using this

end Pipedream.Irregular
