import Verif.TopologyProps
import Mathlib.Algebra.BigOperators.Intervals
import Mathlib.Algebra.Order.Field.Rat
import Mathlib.Data.Fintype.Card
import Mathlib.Tactic.IntervalCases

/-!
# Properties of construction: C47 (orientation), C48 (generated internals), C67 (end slopes),
C68 (reversal), C69 (permuted models)
-/

set_option linter.unusedSectionVars false

namespace Pipedream.Topology

open Pipedream.Sweep Pipedream.Link

variable {K : Type*} [Field K] [LinearOrder K] [IsStrictOrderedRing K]

/-! ### C48: lengths, elevations, slopes -/

theorem sum_diff (x : ℕ → K) (n : ℕ) : ∑ i ∈ Finset.range n, diff x i = x n - x 0 := by
  unfold diff; exact Finset.sum_range_sub x n

theorem genX_eq (dx : K) (n j : ℕ) : genX dx n j = (j : K) * (dx / (n : K)) := by
  unfold genX linspace; push_cast; rw [add_sub_cancel_right]

/-- **C48, lengths.** The generated links of a superlink of length `dx > 0` have positive (equal)
lengths that add up to `dx`. -/
theorem C48_lengths {dx : K} (hdx : 0 < dx) {n : ℕ} (hn : 1 ≤ n) :
    (∀ i, i < n → 0 < diff (genX dx n) i ∧ diff (genX dx n) i = dx / (n : K)) ∧
    ∑ i ∈ Finset.range n, diff (genX dx n) i = dx := by
  have hn0 : (0 : K) < (n : K) := by exact_mod_cast hn
  have hd : ∀ i, diff (genX dx n) i = dx / (n : K) := by
    intro i
    unfold diff
    rw [genX_eq, genX_eq]; push_cast; ring
  refine ⟨fun i _ => ⟨by rw [hd]; positivity, hd i⟩, ?_⟩
  rw [sum_diff, genX_eq, genX_eq]
  field_simp; simp

/-- Elevation of a straight pipe bed at distance `s` from its upstream end (specification). -/
def straightBed (z_uk z_dk total s : K) : K := z_uk + (z_dk - z_uk) * (s / total)

/-- **C48, elevations.** With or without end stretches, every generated junction lies on the straight
line between the invert of the upstream end and the invert of the downstream end, for any positions
`x` measured from the first junction. -/
theorem C48_elevations (z_uk z_dk dx dx_uk dx_dk : K) (x : ℕ → K) (j : ℕ) :
    genZ (slopeM z_uk z_dk dx dx_uk dx_dk)
        (interceptB0 z_uk (slopeM z_uk z_dk dx dx_uk dx_dk) dx_uk) x j
      = straightBed z_uk z_dk (dx_uk + dx + dx_dk) (dx_uk + x j) := by
  unfold genZ slopeM interceptB0 straightBed
  rw [show dx + dx_uk + dx_dk = dx_uk + dx + dx_dk by ring]
  ring

/-- **C48, end elevations.** The first junction lies a distance `dx_uk` from the upstream invert, the
last one a distance `dx_dk` from the downstream invert; without end stretches they are at the
inverts. -/
theorem C48_end_elevations {z_uk z_dk dx dx_uk dx_dk : K} (hdx : 0 < dx) (hu : 0 ≤ dx_uk)
    (hd : 0 ≤ dx_dk) {n : ℕ} (hn : 1 ≤ n) :
    let m := slopeM z_uk z_dk dx dx_uk dx_dk
    genZ m (interceptB0 z_uk m dx_uk) (genX dx n) 0 = z_uk + m * dx_uk ∧
    genZ m (interceptB0 z_uk m dx_uk) (genX dx n) n = interceptB1 z_dk m dx_dk ∧
    (dx_uk = 0 → genZ m (interceptB0 z_uk m dx_uk) (genX dx n) 0 = z_uk) ∧
    (dx_dk = 0 → genZ m (interceptB0 z_uk m dx_uk) (genX dx n) n = z_dk) := by
  intro m
  have hn0 : (n : K) ≠ 0 := by
    have : (0 : K) < (n : K) := by exact_mod_cast hn
    exact this.ne'
  have htot : (0 : K) < dx + dx_uk + dx_dk := by linarith
  have h0 : genX dx n 0 = 0 := by rw [genX_eq]; simp
  have h1 : genX dx n n = dx := by rw [genX_eq]; field_simp
  have hm : m * (dx + dx_uk + dx_dk) = z_dk - z_uk := by
    show (z_dk - z_uk) / (dx + dx_uk + dx_dk) * _ = _
    field_simp
  refine ⟨?_, ?_, ?_, ?_⟩
  · unfold genZ interceptB0; rw [h0]; ring
  · unfold genZ interceptB0 interceptB1; rw [h1]; linear_combination hm
  · intro e; unfold genZ interceptB0; rw [h0, e]; ring
  · intro e; unfold genZ interceptB0; rw [h1]; rw [e] at hm; linear_combination hm

/-- **C48, bed slope.** All links of a superlink get the same bed slope, the drop between the two ends
over the whole length including the end stretches. Holds for any distinct positions, hence also with a
mobile junction. -/
theorem C48_slopes {z_uk z_dk dx dx_uk dx_dk : K} (x : ℕ → K) {i : ℕ} (hx : diff x i ≠ 0) :
    let m := slopeM z_uk z_dk dx dx_uk dx_dk
    linkSlope (genZ m (interceptB0 z_uk m dx_uk) x) (diff x) i
      = (z_uk - z_dk) / (dx_uk + dx + dx_dk) := by
  intro m
  have : genZ m (interceptB0 z_uk m dx_uk) x i - genZ m (interceptB0 z_uk m dx_uk) x (i + 1)
      = -m * diff x i := by unfold genZ diff; ring
  unfold linkSlope
  rw [this, mul_div_assoc, div_self hx, mul_one]
  show -((z_dk - z_uk) / (dx + dx_uk + dx_dk)) = _
  rw [show dx + dx_uk + dx_dk = dx_uk + dx + dx_dk by ring]
  ring

/-! ### Sorting -/

theorem argsort_surj {N : ℕ} {x : ℕ → K} {ix : ℕ → ℕ} (h : IsArgsort N x ix) {q : ℕ} (hq : q < N) :
    ∃ i, i < N ∧ ix i = q := by
  let f : Fin N → Fin N := fun i => ⟨ix i, h.lt i i.2⟩
  have hf : Function.Injective f := by
    intro a b e
    have : ix a = ix b := congrArg Fin.val e
    exact Fin.ext (h.inj a b a.2 b.2 this)
  obtain ⟨i, hi⟩ := (Finite.injective_iff_surjective.1 hf) ⟨q, hq⟩
  exact ⟨i, i.2, congrArg Fin.val hi⟩

/-- The first entry of the sorted array is a lower bound attained in it. -/
theorem argsort_first {N : ℕ} {x : ℕ → K} {ix : ℕ → ℕ} (h : IsArgsort N x ix) {q : ℕ} (hq : q < N)
    (hmin : ∀ j, j < N → x q ≤ x j) : x (ix 0) = x q := by
  obtain ⟨i, hi, e⟩ := argsort_surj h hq
  refine le_antisymm ?_ (hmin _ (h.lt 0 (by omega)))
  rw [← e]; exact h.sorted 0 i (Nat.zero_le _) hi

theorem argsort_last {N : ℕ} {x : ℕ → K} {ix : ℕ → ℕ} (h : IsArgsort N x ix) {q : ℕ} (hq : q < N)
    (hmax : ∀ j, j < N → x j ≤ x q) : x (ix (N - 1)) = x q := by
  obtain ⟨i, hi, e⟩ := argsort_surj h hq
  refine le_antisymm (hmax _ (h.lt _ (by omega))) ?_
  rw [← e]; exact h.sorted i (N - 1) (by omega) (by omega)

theorem argsort_strict {N : ℕ} {x : ℕ → K} {ix : ℕ → ℕ} (h : IsArgsort N x ix)
    (hx : ∀ i j, i < N → j < N → x i = x j → i = j) {i : ℕ} (hi : i + 1 < N) :
    x (ix i) < x (ix (i + 1)) := by
  refine lt_of_le_of_ne (h.sorted i (i + 1) (by omega) hi) ?_
  intro e
  have := h.inj i (i + 1) (by omega) hi (hx _ _ (h.lt i (by omega)) (h.lt _ hi) e)
  omega

/-! ### The mobile junction -/

/-- The mobile junction starts strictly inside the pipe and never on one of the fixed junctions. -/
theorem mobile_distinct {dx : K} (hdx : 0 < dx) {n : ℕ} (hn : 2 ≤ n) :
    0 < mobileCentre dx n ∧ mobileCentre dx n < dx ∧
    ∀ i, i < n → linspace dx n i ≠ mobileCentre dx n := by
  have hn0 : (0 : K) < (n : K) := by exact_mod_cast (by omega : 0 < n)
  have hn1 : (1 : K) < (n : K) := by exact_mod_cast (by omega : 1 < n)
  have hn1' : (n : K) - 1 ≠ 0 := by linarith
  unfold mobileCentre
  by_cases hpar : (n + 1) % 2 ≠ 0
  · rw [if_pos hpar]
    refine ⟨by linarith, by linarith, fun i _ e => ?_⟩
    unfold linspace at e
    have e2 : (2 : K) * (i : K) = (n : K) - 1 := by
      field_simp at e
      linarith
    have e3 : (2 * i + 1 : ℕ) = n := by
      have : ((2 * i + 1 : ℕ) : K) = (n : K) := by push_cast; linarith
      exact_mod_cast this
    omega
  · rw [if_neg hpar]
    have hq : dx / (n : K) / 2 < dx / 2 := by
      have : dx / (n : K) < dx := div_lt_self hdx hn1
      linarith
    have hq0 : 0 < dx / (n : K) / 2 := by positivity
    refine ⟨by linarith, by linarith, fun i _ e => ?_⟩
    unfold linspace at e
    have e2 : (2 : K) * (n : K) * (i : K) = ((n : K) - 1) * ((n : K) + 1) := by
      field_simp at e
      linarith
    have e3 : 2 * n * i + 1 = n * n := by
      have : ((2 * n * i + 1 : ℕ) : K) = ((n * n : ℕ) : K) := by push_cast; linarith
      exact_mod_cast this
    have hdvd : n ∣ 1 := by
      have h1 : n ∣ n * n := ⟨n, rfl⟩
      have h2 : n ∣ 2 * n * i := ⟨2 * i, by ring⟩
      rw [← e3] at h1
      exact (Nat.dvd_add_right h2).1 h1
    have := Nat.le_of_dvd one_pos hdvd
    omega

theorem linspace_bounds {dx : K} (hdx : 0 < dx) {n : ℕ} (hn : 2 ≤ n) {i : ℕ} (hi : i < n) :
    0 ≤ linspace dx n i ∧ linspace dx n i ≤ dx := by
  have hn1 : (0 : K) < (n : K) - 1 := by
    have : (1 : K) < (n : K) := by exact_mod_cast (by omega : 1 < n)
    linarith
  have hi' : (i : K) ≤ (n : K) - 1 := by
    have : ((i + 1 : ℕ) : K) ≤ (n : K) := by exact_mod_cast hi
    push_cast at this; linarith
  unfold linspace
  refine ⟨by positivity, ?_⟩
  rw [← mul_div_assoc, div_le_iff₀ hn1]
  nlinarith

/-- **C48, mobile element.** With a mobile junction (needs more than one link) the sorted junction
positions are strictly increasing from `0` to `dx`, so the `n` links have positive lengths adding up to
`dx`; the mobile junction is neither the first nor the last. -/
theorem C48_mobile {dx : K} (hdx : 0 < dx) {n : ℕ} (hn : 2 ≤ n) {ix : ℕ → ℕ}
    (h : IsArgsort (n + 1) (mobileX dx n) ix) :
    (∀ i, i < n → 0 < diff (fun j => mobileX dx n (ix j)) i) ∧
    ∑ i ∈ Finset.range n, diff (fun j => mobileX dx n (ix j)) i = dx ∧
    ∃ c, 0 < c ∧ c < n ∧ ix c = n := by
  obtain ⟨hc0, hc1, hcd⟩ := mobile_distinct hdx hn
  have hfix : ∀ i, i < n → mobileX dx n i = linspace dx n i := fun i hi => if_neg (by omega)
  have hmob : mobileX dx n n = mobileCentre dx n := if_pos rfl
  have hn1 : (0 : K) < (n : K) - 1 := by
    have : (1 : K) < (n : K) := by exact_mod_cast (by omega : 1 < n)
    linarith
  have hinj : ∀ i j, i < n + 1 → j < n + 1 → mobileX dx n i = mobileX dx n j → i = j := by
    intro i j hi hj e
    rcases Nat.lt_succ_iff_lt_or_eq.1 hi with hi | rfl
    · rcases Nat.lt_succ_iff_lt_or_eq.1 hj with hj | rfl
      · rw [hfix i hi, hfix j hj] at e
        unfold linspace at e
        have : (i : K) = (j : K) := mul_right_cancel₀ (by positivity) e
        exact_mod_cast this
      · rw [hfix i hi, hmob] at e
        exact absurd e (hcd i hi)
    · rcases Nat.lt_succ_iff_lt_or_eq.1 hj with hj | rfl
      · rw [hfix j hj, hmob] at e
        exact absurd e.symm (hcd j hj)
      · rfl
  have hx0 : mobileX dx n 0 = 0 := by rw [hfix 0 (by omega)]; simp [linspace]
  have hxl : mobileX dx n (n - 1) = dx := by
    rw [hfix _ (by omega)]; unfold linspace
    rw [Nat.cast_sub (by omega)]; push_cast; field_simp
  have hb : ∀ j, j < n + 1 → 0 ≤ mobileX dx n j ∧ mobileX dx n j ≤ dx := by
    intro j hj
    rcases Nat.lt_succ_iff_lt_or_eq.1 hj with hj | rfl
    · rw [hfix j hj]; exact linspace_bounds hdx hn hj
    · rw [hmob]; exact ⟨hc0.le, hc1.le⟩
  have hfirst : mobileX dx n (ix 0) = 0 :=
    (argsort_first h (q := 0) (by omega) (fun j hj => by rw [hx0]; exact (hb j hj).1)).trans hx0
  have hlast : mobileX dx n (ix n) = dx :=
    (argsort_last h (q := n - 1) (by omega) (fun j hj => by rw [hxl]; exact (hb j hj).2)).trans hxl
  refine ⟨fun i hi => sub_pos.2 (argsort_strict h hinj (by omega)), ?_, ?_⟩
  · rw [sum_diff]; show mobileX dx n (ix n) - mobileX dx n (ix 0) = dx
    rw [hfirst, hlast, sub_zero]
  · obtain ⟨c, hc, e⟩ := argsort_surj h (q := n) (by omega)
    refine ⟨c, ?_, ?_, e⟩
    · rcases Nat.eq_zero_or_pos c with rfl | h0
      · rw [e, hmob] at hfirst; exact absurd hfirst hc0.ne'
      · exact h0
    · rcases Nat.lt_succ_iff_lt_or_eq.1 hc with h0 | rfl
      · exact h0
      · rw [e, hmob] at hlast; exact absurd hlast hc1.ne

/-- Non-vacuous: two links of a 10 m pipe, mobile junction in the middle (fixed ones at 0 and 10). -/
example : ∃ ix : ℕ → ℕ, IsArgsort 3 (mobileX (10 : ℚ) 2) ix ∧ mobileX (10 : ℚ) 2 (ix 1) = 5 := by
  refine ⟨fun i => if i = 1 then 2 else if i = 2 then 1 else i, ⟨?_, ?_, ?_⟩, ?_⟩
  · intro i hi; interval_cases i <;> simp
  · intro i j hi hj e; interval_cases i <;> interval_cases j <;> simp_all
  · intro i j hij hj
    interval_cases j <;> interval_cases i <;>
      norm_num [mobileX, mobileCentre, linspace]
  · norm_num [mobileX, mobileCentre]

/-! ### C67: slopes of the end stretches -/

/-- **C67 (upstream).** The slope stored for an upstream end stretch is the slope of the pipe. -/
theorem C67_upstream {z_uk z_dk dx dx_uk dx_dk : K} (hu : 0 < dx_uk) (x : ℕ → K) (hx : x 0 = 0) :
    let m := slopeM z_uk z_dk dx dx_uk dx_dk
    endSlopeU z_uk (genZ m (interceptB0 z_uk m dx_uk) x 0) dx_uk
      = (z_uk - z_dk) / (dx_uk + dx + dx_dk) := by
  intro m
  unfold endSlopeU genZ interceptB0
  rw [if_pos hu, hx]
  rw [show z_uk - (0 * m + (z_uk + m * dx_uk)) = -m * dx_uk by ring, mul_div_assoc,
    div_self hu.ne', mul_one]
  show -((z_dk - z_uk) / (dx + dx_uk + dx_dk)) = _
  rw [show dx + dx_uk + dx_dk = dx_uk + dx + dx_dk by ring]
  ring

/-- **C67 (downstream) holds exactly when the pipe also has an upstream end stretch, or is level.**
The test on line 733 uses `_dx_uk` instead of `_dx_dk`. -/
theorem C67_downstream_iff {z_uk z_dk dx dx_uk dx_dk : K} (hdx : 0 < dx) (hu : 0 ≤ dx_uk)
    (hd : 0 < dx_dk) {n : ℕ} (x : ℕ → K) (hx : x n = dx) :
    let m := slopeM z_uk z_dk dx dx_uk dx_dk
    endSlopeD z_dk (genZ m (interceptB0 z_uk m dx_uk) x n) dx_uk dx_dk
      = (z_uk - z_dk) / (dx_uk + dx + dx_dk) ↔ (0 < dx_uk ∨ z_uk = z_dk) := by
  intro m
  have htot : (0 : K) < dx + dx_uk + dx_dk := by linarith
  have hm : m * (dx + dx_uk + dx_dk) = z_dk - z_uk := by
    show (z_dk - z_uk) / (dx + dx_uk + dx_dk) * _ = _
    field_simp
  have hval : (genZ m (interceptB0 z_uk m dx_uk) x n - z_dk) / dx_dk
      = (z_uk - z_dk) / (dx_uk + dx + dx_dk) := by
    rw [div_eq_div_iff hd.ne' (by linarith)]
    unfold genZ interceptB0
    rw [hx]
    linear_combination (dx_uk + dx) * hm
  unfold endSlopeD
  by_cases h0 : 0 < dx_uk
  · rw [if_pos h0]
    exact ⟨fun _ => Or.inl h0, fun _ => hval⟩
  · rw [if_neg h0]
    have hne : dx_uk + dx + dx_dk ≠ 0 := by linarith
    constructor
    · intro e
      right
      rw [eq_comm, div_eq_zero_iff] at e
      rcases e with e | e
      · linarith
      · exact absurd e hne
    · rintro (h | h)
      · exact absurd h h0
      · rw [h, sub_self, zero_div]

/-- The violating case exists: no upstream stretch, 1 m downstream stretch, a drop of 11 m over 11 m. -/
example : ∃ z_uk z_dk dx dx_dk : ℚ, 0 < dx ∧ 0 < dx_dk ∧
    endSlopeD z_dk (genZ (slopeM z_uk z_dk dx 0 dx_dk)
      (interceptB0 z_uk (slopeM z_uk z_dk dx 0 dx_dk) 0) (genX dx 1) 1) 0 dx_dk
      ≠ (z_uk - z_dk) / (0 + dx + dx_dk) := by
  refine ⟨11, 0, 10, 1, by norm_num, by norm_num, ?_⟩
  norm_num [endSlopeD]

/-! ### C47: pipes run downhill -/

/-- **C47 holds exactly when the offsets do not outweigh the difference of the inverts.** The upstream
invert of a superlink is not below its downstream invert, except when the out-offset exceeds the
in-offset by more than the difference of the superjunction inverts. -/
theorem C47_downhill_iff (z : ℕ → K) (sj0 sj1 : ℕ) (inOff outOff : K) :
    zInvD z sj0 sj1 inOff outOff ≤ zInvU z sj0 sj1 inOff outOff ↔
      outOff - inOff ≤ |z sj0 - z sj1| := by
  unfold zInvD zInvU orient
  by_cases h : z sj0 + inOff < z sj1 + outOff
  · rw [if_pos h]
    simp only
    rcases le_total (z sj0) (z sj1) with hz | hz
    · rw [abs_of_nonpos (by linarith)]
      constructor <;> intro <;> linarith
    · rw [abs_of_nonneg (by linarith)]
      constructor
      · intro h2; linarith
      · intro h2; linarith
  · rw [if_neg h]
    simp only
    push Not at h
    refine ⟨fun _ => ?_, fun _ => h⟩
    have := le_abs_self (z sj0 - z sj1)
    linarith

/-- **C47 for equal offsets** (in particular without offsets, the usual case). -/
theorem C47_equal_offsets_partial (z : ℕ → K) (sj0 sj1 : ℕ) (off : K) :
    zInvD z sj0 sj1 off off ≤ zInvU z sj0 sj1 off off := by
  rw [C47_downhill_iff, sub_self]; exact abs_nonneg _

/-- **C47, links (partial).** With equal offsets every generated link slopes down towards its downstream end: its
slope, positive downhill, is not negative. -/
theorem C47_link_slopes_partial (z : ℕ → K) (sj0 sj1 : ℕ) (off : K) {dx dx_uk dx_dk : K} (hdx : 0 < dx)
    (hu : 0 ≤ dx_uk) (hd : 0 ≤ dx_dk) {n i : ℕ} (hn : 1 ≤ n) (hi : i < n) :
    let zu := zInvU z sj0 sj1 off off
    let zd := zInvD z sj0 sj1 off off
    let m := slopeM zu zd dx dx_uk dx_dk
    0 ≤ linkSlope (genZ m (interceptB0 zu m dx_uk) (genX dx n)) (diff (genX dx n)) i := by
  intro zu zd m
  rw [C48_slopes _ ((C48_lengths hdx hn).1 i hi).1.ne']
  exact div_nonneg (sub_nonneg.2 (C47_equal_offsets_partial z sj0 sj1 off)) (by linarith)

/-- **C47 is false in general**: a level pair of superjunctions, out-offset 1 m. -/
theorem C47_uphill :
    ∃ (z : ℕ → ℚ) (sj0 sj1 : ℕ) (inOff outOff : ℚ),
      zInvU z sj0 sj1 inOff outOff < zInvD z sj0 sj1 inOff outOff := by
  refine ⟨fun _ => 0, 0, 1, 0, 1, ?_⟩
  norm_num [zInvU, zInvD, orient]

/-! ### C68: reversing a superlink -/

/-- Elevation at which the pipe meets superjunction `sj` after construction (`sj` one of its two
ends). -/
def endElevation (z : ℕ → K) (sj0 sj1 : ℕ) (inOff outOff : K) (sj : ℕ) : K :=
  if (orient z sj0 sj1 inOff outOff).1 = sj then zInvU z sj0 sj1 inOff outOff
  else zInvD z sj0 sj1 inOff outOff

/-- **C68 holds exactly when the pipe is not reversed or the offsets are equal.** The pipe was entered
as meeting `sj0` at `z sj0 + in_offset` and `sj1` at `z sj1 + out_offset`. -/
theorem C68_ends_kept_iff (z : ℕ → K) {sj0 sj1 : ℕ} (hne : sj0 ≠ sj1) (inOff outOff : K) :
    (endElevation z sj0 sj1 inOff outOff sj0 = z sj0 + inOff ∧
      endElevation z sj0 sj1 inOff outOff sj1 = z sj1 + outOff) ↔
    (z sj1 + outOff ≤ z sj0 + inOff ∨ inOff = outOff) := by
  unfold endElevation zInvU zInvD orient
  by_cases h : z sj0 + inOff < z sj1 + outOff
  · simp only [if_pos h, if_neg hne.symm, if_true]
    constructor
    · rintro ⟨h1, _⟩; right; linarith
    · rintro (h1 | h1)
      · exact absurd h1 (not_le.2 h)
      · rw [h1]; exact ⟨rfl, rfl⟩
  · simp only [if_neg h, if_true, if_neg hne]
    exact ⟨fun _ => Or.inl (not_lt.1 h), fun _ => ⟨trivial, trivial⟩⟩

/-- **C68 is false in general**: the pipe from a superjunction at 0 m (in-offset 0) to one at 10 m
(out-offset 1) is built so that it meets the lower one at 1 m and the upper one at 10 m. -/
theorem C68_ends_exchanged :
    ∃ (z : ℕ → ℚ), endElevation z 0 1 0 1 0 = 1 ∧ endElevation z 0 1 0 1 1 = 10 := by
  refine ⟨fun j => if j = 1 then 10 else 0, ?_, ?_⟩ <;>
    norm_num [endElevation, zInvU, zInvD, orient]

/-! ### C69: permuted models -/

theorem permuteRows_eq {α : Type*} {M : ℕ} {perm inv : ℕ → ℕ} (h : IsPermInv M perm inv)
    (rows : ℕ → α) {a : ℕ} (ha : a < M) : permuteRows M inv rows a = some (rows (perm a)) := by
  unfold permuteRows
  cases hf : (List.range M).find? (fun j => inv j = a) with
  | none =>
    rw [List.find?_eq_none] at hf
    exact absurd (h.left a ha) (by simpa using hf (perm a) (List.mem_range.2 (h.perm_lt a ha)))
  | some j =>
    have hj : j < M := List.mem_range.1 (List.mem_of_find?_eq_some hf)
    have e : inv j = a := by simpa using List.find?_some hf
    rw [Option.map_some, ← e, h.right j hj]

/-- **C69, the permuted network is the same network.** Row `inv j` of the permuted superjunction table
is the row of superjunction `j`; a superlink, orifice, weir or pump between `j` and `j'` joins the rows
of `j` and `j'`; the forcing of superjunction `j` reaches its row. -/
theorem C69_same_network {α : Type*} {M : ℕ} {perm inv : ℕ → ℕ} (h : IsPermInv M perm inv)
    (rows : ℕ → α) (q : ℕ → K) {j : ℕ} (hj : j < M) :
    permuteRows M inv rows (inv j) = some (rows j) ∧
    permuteForcing perm q (inv j) = q j ∧
    ∀ (J : ℕ → ℕ) (k : ℕ), J k < M →
      permuteRows M inv rows (permuteEnds inv J k) = some (rows (J k)) := by
  refine ⟨?_, ?_, fun J k hJ => ?_⟩
  · rw [permuteRows_eq h rows (h.inv_lt j hj), h.right j hj]
  · unfold permuteForcing; rw [h.right j hj]
  · unfold permuteEnds; rw [permuteRows_eq h rows (h.inv_lt _ hJ), h.right _ hJ]

/-- **C69, labels, with a `name` column**: the recorded column of superjunction `j` carries its name. -/
theorem C69_named {M : ℕ} {perm inv : ℕ → ℕ} (h : IsPermInv M perm inv) (nm : ℕ → String) {j : ℕ}
    (hj : j < M) : superjunctionNames M inv (some nm) (inv j) = some (Label.name (nm j)) := by
  show (permuteRows M inv nm (inv j)).map Label.name = _
  rw [permuteRows_eq h nm (h.inv_lt j hj), h.right j hj]; rfl

/-- **C69, labels, without a `name` column**: the recorded column of superjunction `j` is labelled with
`j` exactly when the permutation does not move it; otherwise with another superjunction's number. -/
theorem C69_unnamed_iff {M : ℕ} {perm inv : ℕ → ℕ} (h : IsPermInv M perm inv) {j : ℕ} (hj : j < M) :
    superjunctionNames M inv none (inv j) = some (Label.number j) ↔ inv j = j := by
  show (permuteRows M inv inv (inv j)).map Label.number = _ ↔ _
  rw [permuteRows_eq h inv (h.inv_lt j hj), h.right j hj]
  simp

/-- The violating case exists: exchanging two superjunctions exchanges the labels of their results. -/
theorem C69_mislabelled :
    ∃ (perm inv : ℕ → ℕ), IsPermInv 2 perm inv ∧
      superjunctionNames 2 inv none (inv 0) = some (Label.number 1) := by
  refine ⟨fun j => 1 - j, fun j => 1 - j, ⟨?_, ?_, ?_, ?_⟩, ?_⟩
  · intro a ha; show 1 - a < 2; omega
  · intro a ha; show 1 - a < 2; omega
  · intro a ha; show 1 - (1 - a) = a; omega
  · intro a ha; show 1 - (1 - a) = a; omega
  · rfl

/-! ### The step theorems apply to constructed models -/

/-- **C48, consistency.** A model whose index arrays were derived by the constructor from block tables
(generated ones in particular) satisfies the consistency assumption of the step theorems, as soon as all
superjunction numbers are in range. -/
theorem C48_consistent {t : Tables} {n J L : ℕ → ℕ} (B : Blocks t n J L) (m : Step.Model)
    (hix : m.ix = t.idx) (hnix : m.nix = t.nodeIdx) (hN : m.N = t.NL)
    (Ju : ∀ k, k < t.NK → m.Ju k < m.M) (Jd : ∀ k, k < t.NK → m.Jd k < m.M)
    (Juo : ∀ k, k < m.n_o → m.Juo k < m.M) (Jdo : ∀ k, k < m.n_o → m.Jdo k < m.M)
    (Juw : ∀ k, k < m.n_w → m.Juw k < m.M) (Jdw : ∀ k, k < m.n_w → m.Jdw k < m.M)
    (Jup : ∀ k, k < m.n_p → m.Jup k < m.M) (Jdp : ∀ k, k < m.n_p → m.Jdp k < m.M) :
    m.Consistent where
  layout := by rw [hix]; exact B.layout
  inN := by
    rw [hix, hN]
    intro k hk
    have hp := B.pos k hk
    have h1 : t.idx.i_1k k = L k := B.i_1k hk
    have h2 : t.idx.nk k = n k := B.nk hk
    have := B.link_lt k hk (n k - 1) (by omega)
    rw [h1, h2]; omega
  nodes := by
    rw [hix, hnix]
    intro k hk
    exact B.nodeIdxSpec hk
  Ju := by rw [hix]; exact Ju
  Jd := by rw [hix]; exact Jd
  Juo := Juo
  Jdo := Jdo
  Juw := Juw
  Jdw := Jdw
  Jup := Jup
  Jdp := Jdp

/-- Non-vacuous: the generated tables for 3 superlinks with 4 links each. -/
example : Blocks (generated 4 3) (fun _ => 4) (fun k => k * 5) (fun k => 4 * k) :=
  C48_generated_blocks 4 3 (by omega)

end Pipedream.Topology
