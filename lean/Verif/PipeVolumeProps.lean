import Verif.BoundaryVolumeProps
import Verif.VolumeRunProps
import Verif.PartModel
import Verif.ShapeIntegralProps
import Mathlib.Analysis.SpecialFunctions.Integrals.Basic

/-!
# C213: the water in a pipe, read off its cross sections, over a run

Each step balances the links of a superlink with the width at the old water level, so the volume `Σ dx·A` read off
the cross sections does not follow the flows exactly. Here the difference: zero for vertical walls, water created
where the section widens upwards (whether the level rises or falls), water destroyed where it narrows, accumulated
over a run of any length.
-/

namespace Pipedream.Step

open Pipedream.Sweep Pipedream.Link Pipedream.Superlink Pipedream.Control Pipedream.Network
open Pipedream.Geometry Pipedream.Interp

variable {m : Model} {geo : Geo} {inp : Inputs} {wk : Work} {prev cur : Hyd} {co : Coef ℝ} {x : ℕ → ℝ}

noncomputable section

/-! ### Specification -/

/-- Water in superlink `k`: the flow area of every link times its length, plus what stands on the junctions' own
surface. -/
def waterIn (m : Model) (sec : ℕ → Section) (s : Hyd) (k : ℕ) : ℝ :=
  ∑ j ∈ Finset.range (m.ix.nk k), m.dx (m.ix.i_1k k + j)
      * (sec (m.ix.i_1k k + j)).A (s.h (m.ix.I_1k k + j)) (s.h (m.ix.I_1k k + j + 1))
    + ∑ j ∈ Finset.range (m.ix.nk k + 1), m.A_S (m.ix.I_1k k + j) * s.h (m.ix.I_1k k + j)

/-- Water taken up by the two end stretches of superlink `k` between two states. -/
def endGain (m : Model) (geo : Geo) (s s' : Hyd) (k : ℕ) : ℝ :=
  m.dx_uk k * geo.B_u k / 2 * (s'.h (m.ix.I_1k k) - s.h (m.ix.I_1k k))
    + m.dx_dk k * geo.B_d k / 2 * (s'.h (m.ix.I_1k k + m.ix.nk k) - s.h (m.ix.I_1k k + m.ix.nk k))

/-- Water delivered to superlink `k` during a step: through its ends and into its junctions. -/
def pipeSupply (m : Model) (inp : Inputs) (s' : Hyd) (k : ℕ) : ℝ :=
  inp.dt * (s'.Qu k - s'.Qd k + ∑ j ∈ Finset.range (m.ix.nk k + 1), inp.Q_0Ik (m.ix.I_1k k + j))

/-- What a section gains between two pairs of end depths beyond its old width times the change of the level. -/
def excess (c : Section) (h1 h2 h1' h2' : ℝ) : ℝ :=
  c.A h1' h2' - c.A h1 h2 - c.B h1 h2 * ((h1' + h2') / 2 - (h1 + h2) / 2)

/-- Water that appears in superlink `k` between two states without being delivered. -/
def created (m : Model) (sec : ℕ → Section) (s s' : Hyd) (k : ℕ) : ℝ :=
  ∑ j ∈ Finset.range (m.ix.nk k), m.dx (m.ix.i_1k k + j) * excess (sec (m.ix.i_1k k + j))
    (s.h (m.ix.I_1k k + j)) (s.h (m.ix.I_1k k + j + 1)) (s'.h (m.ix.I_1k k + j)) (s'.h (m.ix.I_1k k + j + 1))

/-- The widths a step uses are those of the sections at the depths it starts from (superlink.py 4025–4033). -/
def WidthsOf (m : Model) (geo : Geo) (sec : ℕ → Section) (s : Hyd) (k : ℕ) : Prop :=
  ∀ j, j < m.ix.nk k → geo.B (m.ix.i_1k k + j)
    = (sec (m.ix.i_1k k + j)).B (s.h (m.ix.I_1k k + j)) (s.h (m.ix.I_1k k + j + 1))

/-! ### One step -/

/-- The geometry of a pass has the widths of the sections. -/
theorem widthsOf_geoOf {P : Plan} (lt : LinkTables m P) (hid : Hidden) (Ao : ℕ → ℝ) (s : Hyd) {k : ℕ}
    (hk : k < m.ix.NK) : WidthsOf m (m.geoOf P hid Ao s) P.sec s k := fun j hj => by
  show (P.sec _).B (s.h (P.Ik _)) (s.h (P.Ik _ + 1)) = _
  rw [lt.Ik k hk j hj]

/-- Sum over junctions of half the adjoining stretches, taken per link. -/
theorem sum_halves (n : ℕ) (f c d : ℕ → ℝ) (a b : ℝ) :
    ∑ j ∈ Finset.range (n + 1), ((if j = 0 then a else f (j - 1)) + (if j = n then b else f j) + c j) * d j
      = ∑ j ∈ Finset.range n, f j * (d j + d (j + 1)) + (a * d 0 + b * d n)
        + ∑ j ∈ Finset.range (n + 1), c j * d j := by
  have e1 : ∑ j ∈ Finset.range (n + 1), (if j = 0 then a else f (j - 1)) * d j
      = ∑ j ∈ Finset.range n, f j * d (j + 1) + a * d 0 := by
    rw [Finset.sum_range_succ']; simp
  have e2 : ∑ j ∈ Finset.range (n + 1), (if j = n then b else f j) * d j
      = ∑ j ∈ Finset.range n, f j * d j + b * d n := by
    rw [Finset.sum_range_succ, if_pos rfl]
    congr 1
    refine Finset.sum_congr rfl fun j hj => ?_
    rw [if_neg (by have := Finset.mem_range.mp hj; omega)]
  simp only [add_mul, mul_add, Finset.sum_add_distrib]
  rw [e1, e2]; ring

/-- In an unclipped step the junctions of a superlink gain, by their surface areas, what is delivered. -/
theorem pipe_unclipped (c : m.Consistent) (st : StartTables m) (ps : PhysicalStep m geo inp)
    (p : Pass m geo inp wk prev cur co x) (he : m.end_method = .b)
    (uc : Unclipped m x (m.advance geo inp wk cur co x)
      (endDepthU m geo wk cur co (m.advance geo inp wk cur co x).H)
      (endDepthD m geo wk cur co (m.advance geo inp wk cur co x).H)) {k : ℕ} (hk : k < m.ix.NK) :
    ∑ j ∈ Finset.range (m.ix.nk k + 1),
      surfaceArea m geo k j * ((m.advance geo inp wk cur co x).h (m.ix.I_1k k + j) - prev.h (m.ix.I_1k k + j))
      = pipeSupply m inp (m.advance geo inp wk cur co x) k := by
  obtain ⟨s, e⟩ := exact_exists (wk := wk) c st ps he p.coefs hk (m.advance geo inp wk cur co x).H
  rw [pipes_account c st ps p he hk e, pipeSupply]
  have z : ∑ j ∈ Finset.range (m.ix.nk k + 1), surfaceArea m geo k j
      * ((m.advance geo inp wk cur co x).h (m.ix.I_1k k + j) - s.h (m.ix.I_1k k + j)) = 0 := by
    refine Finset.sum_eq_zero fun j hj => ?_
    have hj := Finset.mem_range.mp hj
    obtain ⟨r0, rn, ri⟩ := e.reported c st ps p.coefs hk
    obtain ⟨ri, -⟩ := ri (uc.depths k hk)
    obtain ⟨eu, ed, -⟩ := uc.ends k hk
    have : (m.advance geo inp wk cur co x).h (m.ix.I_1k k + j) = s.h (m.ix.I_1k k + j) := by
      rcases Nat.eq_zero_or_pos j with rfl | h1
      · rw [add_zero, r0, e.first, max_eq_right eu]
      · rcases Nat.lt_or_ge j (m.ix.nk k) with h2 | h2
        · exact ri j h1 h2
        · obtain rfl : j = m.ix.nk k := by omega
          rw [rn, e.last, max_eq_right ed]
    rw [this, sub_self, mul_zero]
  rw [z, add_zero]; ring

/-- **C213 (step).** In an unclipped step with the default end method, the water in a pipe as read off its sections, and
the water in its end stretches, change by what is delivered plus, per link, its length times the excess of its
section. -/
theorem C213_step (c : m.Consistent) (st : StartTables m) (ps : PhysicalStep m geo inp)
    (p : Pass m geo inp wk prev cur co x) (he : m.end_method = .b)
    (uc : Unclipped m x (m.advance geo inp wk cur co x)
      (endDepthU m geo wk cur co (m.advance geo inp wk cur co x).H)
      (endDepthD m geo wk cur co (m.advance geo inp wk cur co x).H)) {k : ℕ} (hk : k < m.ix.NK)
    {sec : ℕ → Section} (hB : WidthsOf m geo sec prev k) :
    waterIn m sec (m.advance geo inp wk cur co x) k - waterIn m sec prev k
        + endGain m geo prev (m.advance geo inp wk cur co x) k
      = pipeSupply m inp (m.advance geo inp wk cur co x) k
        + created m sec prev (m.advance geo inp wk cur co x) k := by
  have h := pipe_unclipped c st ps p he uc hk
  set next := m.advance geo inp wk cur co x
  rw [← h]
  have e := sum_halves (m.ix.nk k) (fun j => m.dx (m.ix.i_1k k + j) * geo.B (m.ix.i_1k k + j) / 2)
    (fun j => m.A_S (m.ix.I_1k k + j)) (fun j => next.h (m.ix.I_1k k + j) - prev.h (m.ix.I_1k k + j))
    (m.dx_uk k * geo.B_u k / 2) (m.dx_dk k * geo.B_d k / 2)
  have e' := (Finset.sum_congr rfl fun j _ => by
    rw [surfaceArea]
    rcases Nat.eq_zero_or_pos j with rfl | h1
    · rfl
    · rw [if_neg h1.ne', if_neg h1.ne', show m.ix.i_1k k + j - 1 = m.ix.i_1k k + (j - 1) by omega] :
    ∑ j ∈ Finset.range (m.ix.nk k + 1),
      surfaceArea m geo k j * (next.h (m.ix.I_1k k + j) - prev.h (m.ix.I_1k k + j)) = _).trans e
  rw [e', waterIn, waterIn, endGain, created]
  have l : ∑ j ∈ Finset.range (m.ix.nk k), m.dx (m.ix.i_1k k + j) * excess (sec (m.ix.i_1k k + j))
        (prev.h (m.ix.I_1k k + j)) (prev.h (m.ix.I_1k k + j + 1)) (next.h (m.ix.I_1k k + j))
        (next.h (m.ix.I_1k k + j + 1))
      = ∑ j ∈ Finset.range (m.ix.nk k), m.dx (m.ix.i_1k k + j)
          * (sec (m.ix.i_1k k + j)).A (next.h (m.ix.I_1k k + j)) (next.h (m.ix.I_1k k + j + 1))
        - ∑ j ∈ Finset.range (m.ix.nk k), m.dx (m.ix.i_1k k + j)
          * (sec (m.ix.i_1k k + j)).A (prev.h (m.ix.I_1k k + j)) (prev.h (m.ix.I_1k k + j + 1))
        - ∑ j ∈ Finset.range (m.ix.nk k), m.dx (m.ix.i_1k k + j) * geo.B (m.ix.i_1k k + j) / 2
          * ((next.h (m.ix.I_1k k + j) - prev.h (m.ix.I_1k k + j))
            + (next.h (m.ix.I_1k k + (j + 1)) - prev.h (m.ix.I_1k k + (j + 1)))) := by
    rw [← Finset.sum_sub_distrib, ← Finset.sum_sub_distrib]
    refine Finset.sum_congr rfl fun j hj => ?_
    rw [excess, hB j (Finset.mem_range.mp hj), ← add_assoc (m.ix.I_1k k) j 1]
    ring
  have a : ∑ j ∈ Finset.range (m.ix.nk k + 1), m.A_S (m.ix.I_1k k + j)
        * (next.h (m.ix.I_1k k + j) - prev.h (m.ix.I_1k k + j))
      = ∑ j ∈ Finset.range (m.ix.nk k + 1), m.A_S (m.ix.I_1k k + j) * next.h (m.ix.I_1k k + j)
        - ∑ j ∈ Finset.range (m.ix.nk k + 1), m.A_S (m.ix.I_1k k + j) * prev.h (m.ix.I_1k k + j) := by
    rw [← Finset.sum_sub_distrib]
    exact Finset.sum_congr rfl fun j _ => by ring
  rw [l, a]
  simp only [add_zero]
  ring

/-! ### A run -/

/-- A run of unclipped steps whose widths are those of the sections of superlink `k`. -/
structure PipeRun (m : Model) (n : ℕ) (s : ℕ → Hyd) (geo : ℕ → Geo) (inp : ℕ → Inputs) (wk : ℕ → Work)
    (co : ℕ → Coef ℝ) (x : ℕ → ℕ → ℝ) (sec : ℕ → Section) (k : ℕ) : Prop where
  run : StepRun m n s geo inp wk co x
  physical : ∀ t, t < n → PhysicalStep m (geo t) (inp t)
  unclipped : ∀ t, t < n → Unclipped m (x t) (s (t + 1))
    (endDepthU m (geo t) (wk t) (s t) (co t) (s (t + 1)).H) (endDepthD m (geo t) (wk t) (s t) (co t) (s (t + 1)).H)
  widths : ∀ t, t < n → WidthsOf m (geo t) sec (s t) k

/-- **C213 (run).** Over any number of steps: the water in a pipe changes by what is delivered, minus what its end
stretches take up, plus the water created in every step. -/
theorem C213_run (c : m.Consistent) (st : StartTables m) (he : m.end_method = .b) {n : ℕ} {s : ℕ → Hyd}
    {geo : ℕ → Geo} {inp : ℕ → Inputs} {wk : ℕ → Work} {co : ℕ → Coef ℝ} {x : ℕ → ℕ → ℝ} {sec : ℕ → Section} {k : ℕ}
    (hk : k < m.ix.NK) (r : PipeRun m n s geo inp wk co x sec k) :
    waterIn m sec (s n) k = waterIn m sec (s 0) k
      + ∑ t ∈ Finset.range n, (pipeSupply m (inp t) (s (t + 1)) k - endGain m (geo t) (s t) (s (t + 1)) k)
      + ∑ t ∈ Finset.range n, created m sec (s t) (s (t + 1)) k := by
  have key : ∀ t ∈ Finset.range n, waterIn m sec (s (t + 1)) k - waterIn m sec (s t) k
      = (pipeSupply m (inp t) (s (t + 1)) k - endGain m (geo t) (s t) (s (t + 1)) k)
        + created m sec (s t) (s (t + 1)) k := fun t ht => by
    have ht := Finset.mem_range.mp ht
    have uc := r.unclipped t ht
    have e := r.run.next t ht
    rw [e] at uc
    have := C213_step c st (r.physical t ht) (r.run.pass t ht) he uc hk (r.widths t ht)
    rw [← e] at this
    linarith
  have := Finset.sum_range_sub (fun t => waterIn m sec (s t) k) n
  rw [Finset.sum_congr rfl key, Finset.sum_add_distrib] at this
  linarith

/-! ### What a section creates -/

/-- Shapes whose top width is the width of the shape at the water level. -/
def Faithful : Shape → Prop
  | .circular | .rectClosed | .rectOpen | .triangular | .trapezoidal | .wide | .floodplain => True
  | _ => False

theorem chord_continuous {s : Shape} (p : GP) (hs : Faithful s) : Continuous (chord s p) := by
  cases s <;> first | exact absurd hs id | (unfold chord; fun_prop)

theorem topWidth_chord {s : Shape} {p : GP} (hv : Valid s p) (hs : Faithful s) {h1 h2 : ℝ} (h0 : 0 < h1 + h2)
    (h : h1 + h2 < 2 * p.g1) : topWidth s p h1 h2 = chord s p ((h1 + h2) / 2) := by
  obtain ⟨hg, hv⟩ := hv
  have hw : wet h1 h2 = (h1 + h2) / 2 := by
    simp only [wet]; rw [if_neg (by linarith)]
  have hd : depth h1 h2 p.g1 = (h1 + h2) / 2 := by
    rw [depth_eq, max_eq_left (by linarith), min_eq_left (by linarith)]
  have lt : (h1 + h2) / 2 < p.g1 := by linarith
  cases s
  · simp only [topWidth, circularB, hw, if_pos lt, chord]
    rw [circ_chord hg, circTheta_eq hg (by linarith) (by linarith)]
  · simp [topWidth, rectClosedB, hw, lt, chord]
  · rfl
  · simp [topWidth, triangularB, hw, lt, chord]
  · simp [topWidth, trapezoidalB, hw, lt, chord]
  · exact absurd hs id
  · exact absurd hs id
  · rfl
  · exact absurd hs id
  · obtain ⟨v2, v3, -⟩ := hv
    have hi : ind ((h1 + h2) / 2) = 1 := if_pos (by linarith)
    simp only [topWidth, floodplainB, hd, hi, chord]
    generalize (h1 + h2) / 2 = y
    split_ifs with a b
    · rw [min_eq_left a.le, max_eq_right (by linarith : y - p.g2 ≤ 0), min_eq_left v3,
        max_eq_right (by linarith : y - (p.g2 + p.g3) ≤ 0)]; ring
    · rw [min_eq_right (by linarith : p.g2 ≤ y), max_eq_left (by linarith : 0 ≤ y - p.g2),
        min_eq_left (by linarith : y - p.g2 ≤ p.g3), max_eq_right (by linarith : y - (p.g2 + p.g3) ≤ 0)]; ring
    · rw [min_eq_right (by linarith : p.g2 ≤ y), max_eq_left (by linarith : 0 ≤ y - p.g2),
        min_eq_right (by linarith : p.g3 ≤ y - p.g2), max_eq_left (by linarith : 0 ≤ y - (p.g2 + p.g3))]; ring

theorem mono_bounds {f : ℝ → ℝ} (hf : Continuous f) {a b : ℝ} (hm : MonotoneOn f (Set.uIcc a b)) :
    0 ≤ (∫ z in a..b, (f z - f a)) ∧ (∫ z in a..b, (f z - f a)) ≤ (f b - f a) * (b - a) := by
  have hi : ∀ u v, IntervalIntegrable (fun z => f z - f a) MeasureTheory.volume u v := fun u v =>
    (hf.sub continuous_const).intervalIntegrable u v
  rcases le_total a b with h | h
  · rw [Set.uIcc_of_le h] at hm
    constructor
    · exact intervalIntegral.integral_nonneg h fun z hz =>
        sub_nonneg.2 (hm (Set.left_mem_Icc.2 h) hz hz.1)
    · have := intervalIntegral.integral_mono_on h (hi a b) (intervalIntegrable_const (c := f b - f a))
        fun z hz => sub_le_sub_right (hm hz (Set.right_mem_Icc.2 h) hz.2) _
      rw [intervalIntegral.integral_const, smul_eq_mul] at this
      linarith
  · rw [Set.uIcc_of_ge h] at hm
    rw [intervalIntegral.integral_symm]
    have hi' := hi b a
    have lo : ∫ z in b..a, (f z - f a) ≤ 0 := by
      have := intervalIntegral.integral_mono_on h hi' (intervalIntegrable_const (c := (0 : ℝ)))
        fun z hz => sub_nonpos.2 (hm hz (Set.right_mem_Icc.2 h) hz.2)
      simpa using this
    have up := intervalIntegral.integral_mono_on h (intervalIntegrable_const (c := f b - f a)) hi'
      fun z hz => sub_le_sub_right (hm (Set.left_mem_Icc.2 h) hz hz.1) _
    rw [intervalIntegral.integral_const, smul_eq_mul] at up
    constructor <;> linarith

theorem strict_pos {f : ℝ → ℝ} (hf : Continuous f) {a b : ℝ} (hab : a ≠ b) (hm : StrictMonoOn f (Set.uIcc a b)) :
    0 < ∫ z in a..b, (f z - f a) := by
  have hc : Continuous fun z => f z - f a := hf.sub continuous_const
  rcases lt_or_gt_of_ne hab with h | h
  · rw [Set.uIcc_of_le h.le] at hm
    refine intervalIntegral.intervalIntegral_pos_of_pos_on (hc.intervalIntegrable a b) (fun z hz => ?_) h
    exact sub_pos.2 (hm (Set.left_mem_Icc.2 h.le) (Set.Ioo_subset_Icc_self hz) hz.1)
  · rw [Set.uIcc_of_ge h.le] at hm
    rw [intervalIntegral.integral_symm, ← intervalIntegral.integral_neg]
    refine intervalIntegral.intervalIntegral_pos_of_pos_on (hc.neg.intervalIntegrable b a) (fun z hz => ?_) h
    have := hm (Set.Ioo_subset_Icc_self hz) (Set.right_mem_Icc.2 h.le) hz.2
    show 0 < -(f z - f a)
    linarith

/-- **C213 (excess).** Below the crown, the excess of a section is the water between the old and the new level
outside the vertical walls through the old water edge. -/
theorem C213_excess {s : Shape} {p : GP} (hv : Valid s p) (hs : Faithful s) {h1 h2 h1' h2' : ℝ} (h0 : 0 < h1 + h2)
    (h : h1 + h2 < 2 * p.g1) (h0' : 0 ≤ h1' + h2') (h' : h1' + h2' ≤ 2 * p.g1) :
    excess (.regular s p) h1 h2 h1' h2'
      = ∫ z in (h1 + h2) / 2..(h1' + h2') / 2, (chord s p z - chord s p ((h1 + h2) / 2)) := by
  have hc := chord_continuous p hs
  have hp : s ≠ .parabolic := by rintro rfl; exact hs
  have hf : s ≠ .forceMain := by rintro rfl; exact hs
  have l : level h1 h2 p.g1 = (h1 + h2) / 2 := by
    rw [level, max_eq_left (by linarith), min_eq_left (by linarith)]
  have l' : level h1' h2' p.g1 = (h1' + h2') / 2 := by
    rw [level, max_eq_left (by linarith), min_eq_left (by linarith)]
  show area s p h1' h2' - area s p h1 h2 - topWidth s p h1 h2 * _ = _
  rw [C212_area s p hv hp hf, C212_area s p hv hp hf, l, l', topWidth_chord hv hs h0 h,
    intervalIntegral.integral_sub (hc.intervalIntegrable _ _) intervalIntegrable_const,
    intervalIntegral.integral_interval_sub_left (hc.intervalIntegrable _ _) (hc.intervalIntegrable _ _),
    intervalIntegral.integral_const, smul_eq_mul]
  ring

/-- **C213 (vertical walls).** Rectangular and wide sections create nothing below the crown. -/
theorem C213_straight {s : Shape} {p : GP} (hv : Valid s p) (hs : s = .rectClosed ∨ s = .rectOpen ∨ s = .wide)
    {h1 h2 h1' h2' : ℝ} (h0 : 0 < h1 + h2) (h : h1 + h2 < 2 * p.g1) (h0' : 0 ≤ h1' + h2')
    (h' : h1' + h2' ≤ 2 * p.g1) : excess (.regular s p) h1 h2 h1' h2' = 0 := by
  rcases hs with rfl | rfl | rfl <;> (rw [C213_excess hv trivial h0 h h0' h']; simp [chord])

/-- **C213 (widening).** Where a section widens upwards between the old and the new level, it creates water whether the
level rises or falls, at most the change of the width times the change of the level. -/
theorem C213_widening {s : Shape} {p : GP} (hv : Valid s p) (hs : Faithful s) {h1 h2 h1' h2' : ℝ} (h0 : 0 < h1 + h2)
    (h : h1 + h2 < 2 * p.g1) (h0' : 0 ≤ h1' + h2') (h' : h1' + h2' ≤ 2 * p.g1)
    (hm : MonotoneOn (chord s p) (Set.uIcc ((h1 + h2) / 2) ((h1' + h2') / 2))) :
    0 ≤ excess (.regular s p) h1 h2 h1' h2' ∧ excess (.regular s p) h1 h2 h1' h2'
      ≤ (chord s p ((h1' + h2') / 2) - chord s p ((h1 + h2) / 2)) * ((h1' + h2') / 2 - (h1 + h2) / 2) := by
  rw [C213_excess hv hs h0 h h0' h']
  exact mono_bounds (chord_continuous p hs) hm

/-- Triangles, trapezia, rectangles, wide and compound sections widen (or keep their width) upwards. -/
theorem chord_mono {s : Shape} {p : GP} (hv : Valid s p) (hs : Faithful s) (hc : s ≠ .circular) :
    Monotone (chord s p) := by
  obtain ⟨hg, hv⟩ := hv
  intro a b hab
  cases s
  · exact absurd rfl hc
  · exact le_rfl
  · exact le_rfl
  · have hv : 0 < p.g2 := hv
    simp only [chord]; gcongr
  · obtain ⟨-, v3⟩ := hv
    simp only [chord]; gcongr
  · exact absurd hs id
  · exact absurd hs id
  · exact le_rfl
  · exact absurd hs id
  · obtain ⟨v2, v3, v4, v5, v6, v7⟩ := hv
    simp only [chord]; gcongr

/-- **C213 (sloping walls).** A triangle, or a trapezium with sloping sides, creates water in every change of its level. -/
theorem C213_sloping {s : Shape} {p : GP} (hv : Valid s p) (hs : s = .triangular ∨ (s = .trapezoidal ∧ 0 < p.g3))
    {h1 h2 h1' h2' : ℝ} (h0 : 0 < h1 + h2) (h : h1 + h2 < 2 * p.g1) (h0' : 0 ≤ h1' + h2')
    (h' : h1' + h2' ≤ 2 * p.g1) (hne : h1' + h2' ≠ h1 + h2) : 0 < excess (.regular s p) h1 h2 h1' h2' := by
  have hne : (h1 + h2) / 2 ≠ (h1' + h2') / 2 := fun e => hne (by linarith)
  rcases hs with rfl | ⟨rfl, h3⟩
  · rw [C213_excess hv trivial h0 h h0' h']
    refine strict_pos (chord_continuous (s := .triangular) p trivial) hne fun a _ b _ hab => ?_
    have : 0 < p.g2 := hv.2
    simp only [chord]; gcongr
  · rw [C213_excess hv trivial h0 h h0' h']
    refine strict_pos (chord_continuous (s := .trapezoidal) p trivial) hne fun a _ b _ hab => ?_
    simp only [chord]; gcongr

theorem circle_lower {p : GP} {a b : ℝ} (ha : 0 ≤ a) (hb : b ≤ p.g1 / 2) (hab : a < b) :
    chord .circular p a < chord .circular p b := by
  simp only [chord]
  have : Real.sqrt ((p.g1 / 2) ^ 2 - (a - p.g1 / 2) ^ 2) < Real.sqrt ((p.g1 / 2) ^ 2 - (b - p.g1 / 2) ^ 2) :=
    Real.sqrt_lt_sqrt (by nlinarith) (by nlinarith)
  linarith

theorem circle_upper {p : GP} {a b : ℝ} (ha : p.g1 / 2 ≤ a) (hb : b ≤ p.g1) (hab : a < b) :
    chord .circular p b < chord .circular p a := by
  simp only [chord]
  have : Real.sqrt ((p.g1 / 2) ^ 2 - (b - p.g1 / 2) ^ 2) < Real.sqrt ((p.g1 / 2) ^ 2 - (a - p.g1 / 2) ^ 2) :=
    Real.sqrt_lt_sqrt (by nlinarith) (by nlinarith)
  linarith

/-- **C213 (circle).** In a circular pipe every change of the level within the lower half creates water and every change
within the upper half destroys some. -/
theorem C213_circle {p : GP} (hg : 0 < p.g1) {h1 h2 h1' h2' : ℝ} (h0 : 0 < h1 + h2) (h : h1 + h2 < 2 * p.g1)
    (h0' : 0 ≤ h1' + h2') (h' : h1' + h2' ≤ 2 * p.g1) (hne : h1' + h2' ≠ h1 + h2) :
    (h1 + h2 ≤ p.g1 → h1' + h2' ≤ p.g1 → 0 < excess (.regular .circular p) h1 h2 h1' h2') ∧
    (p.g1 ≤ h1 + h2 → p.g1 ≤ h1' + h2' → excess (.regular .circular p) h1 h2 h1' h2' < 0) := by
  have hne : (h1 + h2) / 2 ≠ (h1' + h2') / 2 := fun e => hne (by linarith)
  have hc := chord_continuous (s := .circular) p trivial
  rw [C213_excess (s := .circular) ⟨hg, trivial⟩ trivial h0 h h0' h']
  constructor
  · intro l l'
    refine strict_pos hc hne fun a ha b hb hab => circle_lower ?_ ?_ hab
    · exact le_trans (le_min (by linarith) (by linarith)) ha.1
    · exact le_trans hb.2 (max_le (by linarith) (by linarith))
  · intro l l'
    have := strict_pos hc.neg hne fun a ha b hb hab => neg_lt_neg (circle_upper (p := p) ?_ ?_ hab)
    · have e : (∫ z in (h1 + h2) / 2..(h1' + h2') / 2, (-chord .circular p z - -chord .circular p ((h1 + h2) / 2)))
          = -∫ z in (h1 + h2) / 2..(h1' + h2') / 2, (chord .circular p z - chord .circular p ((h1 + h2) / 2)) := by
        rw [← intervalIntegral.integral_neg]
        congr 1; funext z; ring
      have t : 0 < ∫ z in (h1 + h2) / 2..(h1' + h2') / 2,
        (-chord .circular p z - -chord .circular p ((h1 + h2) / 2)) := this
      rw [e] at t; linarith
    · exact le_trans (le_min (by linarith) (by linarith)) ha.1
    · exact le_trans hb.2 (max_le (by linarith) (by linarith))

/-- **C213 (surcharged).** While a link runs full its section takes up nothing, and the excess is minus the width used by the
step (for circular, closed rectangular sections and force mains that of the slot above the crown) times the change of the level. -/
theorem C213_surcharged (s : Shape) (p : GP) (hv : Valid s p) {h1 h2 h1' h2' : ℝ} (h : 2 * p.g1 ≤ h1 + h2)
    (h' : 2 * p.g1 ≤ h1' + h2') :
    excess (.regular s p) h1 h2 h1' h2' = -(topWidth s p h1 h2 * ((h1' + h2') / 2 - (h1 + h2) / 2)) ∧
    (s = .circular ∨ s = .forceMain → topWidth s p h1 h2 = p.g2 * p.g1) ∧
    (s = .rectClosed → topWidth s p h1 h2 = p.g3 * p.g2) := by
  have hg := hv.1
  have d : ∀ {a b : ℝ}, 2 * p.g1 ≤ a + b → depth a b p.g1 = p.g1 := fun {a b} hab => by
    rw [depth_eq, max_eq_left (by linarith), min_eq_right (by linarith)]
  have w : ¬ wet h1 h2 < p.g1 := by
    simp only [wet]; rw [if_neg (by linarith)]; linarith
  obtain ⟨F, -, -, -, e⟩ := area_profile s p hv
  refine ⟨?_, ?_, ?_⟩
  · show Geometry.area s p h1' h2' - Geometry.area s p h1 h2 - topWidth s p h1 h2 * _ = _
    rw [e, e, d h, d h', sub_self, zero_sub]
  · rintro (rfl | rfl)
    · simp [topWidth, circularB, w]
    · rfl
  · rintro rfl
    simp [topWidth, rectClosedB, w]

/-- **C213 (parabolic).** A parabolic section differs already in first order: the width used by the step is not the rate at which
the area grows, so a rising level creates water below four ninths of the height and destroys it above, a falling one
the other way round. -/
theorem C213_parabolic {p : GP} (hv : Valid .parabolic p) {h1 h2 h1' h2' : ℝ} (h0 : 0 < h1 + h2)
    (h : h1 + h2 ≤ 2 * p.g1) (h0' : 0 ≤ h1' + h2') (h' : h1' + h2' ≤ 2 * p.g1) :
    excess (.regular .parabolic p) h1 h2 h1' h2'
      = p.g2 * (2 / 3 - Real.sqrt ((h1 + h2) / 2 / p.g1)) * ((h1' + h2') / 2 - (h1 + h2) / 2) ∧
    ((h1 + h2) / 2 < 4 / 9 * p.g1 → 0 < p.g2 * (2 / 3 - Real.sqrt ((h1 + h2) / 2 / p.g1))) ∧
    (4 / 9 * p.g1 < (h1 + h2) / 2 → p.g2 * (2 / 3 - Real.sqrt ((h1 + h2) / 2 / p.g1)) < 0) := by
  obtain ⟨hg, hb⟩ := hv
  have hb : 0 < p.g2 := hb
  have d : ∀ {a b : ℝ}, 0 ≤ a + b → a + b ≤ 2 * p.g1 → depth a b p.g1 = (a + b) / 2 := fun {a b} u v => by
    rw [depth_eq, max_eq_left (by linarith), min_eq_left (by linarith)]
  have w : wet h1 h2 = (h1 + h2) / 2 := by simp only [wet]; rw [if_neg (by linarith)]
  have r : Real.sqrt (4 / 9) = 2 / 3 := by
    rw [show (4 / 9 : ℝ) = (2 / 3) ^ 2 by norm_num, Real.sqrt_sq (by norm_num)]
  refine ⟨?_, fun a => ?_, fun a => ?_⟩
  · simp only [excess, Section.A, Section.B, Geometry.area, topWidth, parabolicA, parabolicB, d h0.le h, d h0' h', w]
    ring
  · have : Real.sqrt ((h1 + h2) / 2 / p.g1) < Real.sqrt (4 / 9) :=
      Real.sqrt_lt_sqrt (by positivity) (by rw [div_lt_iff₀ hg]; exact a)
    rw [r] at this
    exact mul_pos hb (by linarith)
  · have : Real.sqrt (4 / 9) < Real.sqrt ((h1 + h2) / 2 / p.g1) :=
      Real.sqrt_lt_sqrt (by norm_num) (by rw [lt_div_iff₀ hg]; exact a)
    rw [r] at this
    exact mul_neg_of_pos_of_neg hb (by linarith)

/-- The surveyed section sampled by the constructor at `q` levels (nsuperlink.py 352–354). -/
def surveyed (n : ℕ) (x y : ℕ → ℝ) (ymax : ℝ) (q : ℕ) (Rs : ℕ → ℝ) : Section :=
  .irregular q (levels ymax q) (fun i => transectSum segA n x y (levels ymax q i))
    (fun i => transectSum segB n x y (levels ymax q i)) Rs

/-- **C213 (surveyed).** Between two sampled levels the excess of a surveyed section is at most the difference of the two
sampled widths times the change of the level, and zero between vertical walls. -/
theorem C213_surveyed (n : ℕ) (x y : ℕ → ℝ) (hx : ∀ i, i + 1 < n → x i ≤ x (i + 1)) {ymax : ℝ} (hy : 0 < ymax)
    (Rs : ℕ → ℝ) {q i : ℕ} (hi : i + 1 < q) {h1 h2 h1' h2' : ℝ}
    (h : levels ymax q i ≤ (h1 + h2) / 2) (k : (h1 + h2) / 2 ≤ levels ymax q (i + 1))
    (h' : levels ymax q i ≤ (h1' + h2') / 2) (k' : (h1' + h2') / 2 ≤ levels ymax q (i + 1)) :
    |excess (surveyed n x y ymax q Rs) h1 h2 h1' h2'|
      ≤ (transectSum segB n x y (levels ymax q (i + 1)) - transectSum segB n x y (levels ymax q i))
        * |(h1' + h2') / 2 - (h1 + h2) / 2| := by
  have hlt := levels_sorted hy q i (i + 1) (by omega) hi
  have g := C63_transect_growth n x y hx (levels ymax q i) (levels ymax q (i + 1))
  simp only [excess, surveyed, Section.A, Section.B]
  rw [C38_linear_chord (levels_sorted hy q) hi h k, C38_linear_chord (levels_sorted hy q) hi h' k',
    C38_linear_chord (levels_sorted hy q) hi h k]
  generalize levels ymax q i = a at *
  generalize levels ymax q (i + 1) = b at *
  generalize transectSum segA n x y a = Aa at *
  generalize transectSum segA n x y b = Ab at *
  generalize transectSum segB n x y a = Ba at *
  generalize transectSum segB n x y b = Bb at *
  generalize (h1 + h2) / 2 = u at *
  generalize (h1' + h2') / 2 = v at *
  have hd : 0 < b - a := by linarith
  obtain ⟨t, ht⟩ : ∃ t, t = (u - a) / (b - a) := ⟨_, rfl⟩
  obtain ⟨σ, hσ⟩ : ∃ σ, σ = (Ab - Aa) / (b - a) := ⟨_, rfl⟩
  have ht0 : 0 ≤ t := by rw [ht]; exact div_nonneg (by linarith) hd.le
  have ht1 : t ≤ 1 := by rw [ht, div_le_one hd]; linarith
  have s0 : Ba ≤ σ := by rw [hσ, le_div_iff₀ hd]; linarith [g.1]
  have s1 : σ ≤ Bb := by rw [hσ, div_le_iff₀ hd]; linarith [g.2]
  have e : ∀ c, (Ab - Aa) * ((c - a) / (b - a)) = σ * (c - a) := fun c => by rw [hσ]; field_simp
  rw [e, e, ← ht, show Aa + σ * (v - a) - (Aa + σ * (u - a)) - (Ba + (Bb - Ba) * t) * (v - u)
    = (σ - (Ba + (Bb - Ba) * t)) * (v - u) by ring, abs_mul]
  refine mul_le_mul_of_nonneg_right (abs_le.2 ⟨?_, ?_⟩) (abs_nonneg _)
  · nlinarith [mul_nonneg (sub_nonneg.2 ht1) (sub_nonneg.2 (s0.trans s1))]
  · nlinarith [mul_nonneg ht0 (sub_nonneg.2 (s0.trans s1))]

/-! ### What a run creates -/

/-- The levels of the links of superlink `k` stay above the invert and below the crown of its sections, which are
given by shapes `sh` and parameters `gp`. -/
structure OpenPipe (m : Model) (n : ℕ) (s : ℕ → Hyd) (sec : ℕ → Section) (k : ℕ) (sh : ℕ → Shape) (gp : ℕ → GP) :
    Prop where
  regular : ∀ j, j < m.ix.nk k → sec (m.ix.i_1k k + j) = .regular (sh j) (gp j)
  valid : ∀ j, j < m.ix.nk k → Valid (sh j) (gp j)
  levels : ∀ t, t ≤ n → ∀ j, j < m.ix.nk k →
    0 < (s t).h (m.ix.I_1k k + j) + (s t).h (m.ix.I_1k k + j + 1)
    ∧ (s t).h (m.ix.I_1k k + j) + (s t).h (m.ix.I_1k k + j + 1) < 2 * (gp j).g1

/-- **C213 (exact run).** A pipe of rectangular or wide sections which does not run full holds, after any number of
steps, exactly what it held and was given, less what its end stretches took up. -/
theorem C213_exact (c : m.Consistent) (st : StartTables m) (he : m.end_method = .b) {n : ℕ} {s : ℕ → Hyd}
    {geo : ℕ → Geo} {inp : ℕ → Inputs} {wk : ℕ → Work} {co : ℕ → Coef ℝ} {x : ℕ → ℕ → ℝ} {sec : ℕ → Section} {k : ℕ}
    (hk : k < m.ix.NK) (r : PipeRun m n s geo inp wk co x sec k) {sh : ℕ → Shape} {gp : ℕ → GP}
    (o : OpenPipe m n s sec k sh gp)
    (hs : ∀ j, j < m.ix.nk k → sh j = .rectClosed ∨ sh j = .rectOpen ∨ sh j = .wide) :
    waterIn m sec (s n) k = waterIn m sec (s 0) k
      + ∑ t ∈ Finset.range n, (pipeSupply m (inp t) (s (t + 1)) k - endGain m (geo t) (s t) (s (t + 1)) k) := by
  rw [C213_run c st he hk r]
  have : ∑ t ∈ Finset.range n, created m sec (s t) (s (t + 1)) k = 0 := by
    refine Finset.sum_eq_zero fun t ht => Finset.sum_eq_zero fun j hj => ?_
    have ht := Finset.mem_range.mp ht
    have hj := Finset.mem_range.mp hj
    obtain ⟨a, b⟩ := o.levels t ht.le j hj
    obtain ⟨a', b'⟩ := o.levels (t + 1) ht j hj
    rw [o.regular j hj, C213_straight (o.valid j hj) (hs j hj) a b a'.le b'.le, mul_zero]
  rw [this, add_zero]

/-- **C213 (run that gains).** A pipe of triangular, trapezoidal, compound, rectangular or wide sections which does not
run full never loses water: after any number of steps it holds at least what it held and was given. It holds more if
the level of a triangular or sloping trapezoidal link changed in any step, even when every level returned to where
it was. -/
theorem C213_gains (c : m.Consistent) (st : StartTables m) (he : m.end_method = .b) {n : ℕ} {s : ℕ → Hyd}
    {geo : ℕ → Geo} {inp : ℕ → Inputs} {wk : ℕ → Work} {co : ℕ → Coef ℝ} {x : ℕ → ℕ → ℝ} {sec : ℕ → Section} {k : ℕ}
    (hk : k < m.ix.NK) (r : PipeRun m n s geo inp wk co x sec k) {sh : ℕ → Shape} {gp : ℕ → GP}
    (o : OpenPipe m n s sec k sh gp) (hs : ∀ j, j < m.ix.nk k → Faithful (sh j) ∧ sh j ≠ .circular) :
    waterIn m sec (s 0) k
        + ∑ t ∈ Finset.range n, (pipeSupply m (inp t) (s (t + 1)) k - endGain m (geo t) (s t) (s (t + 1)) k)
      ≤ waterIn m sec (s n) k ∧
    ∀ t, t < n → ∀ j, j < m.ix.nk k → sh j = .triangular ∨ (sh j = .trapezoidal ∧ 0 < (gp j).g3) →
      (s (t + 1)).h (m.ix.I_1k k + j) + (s (t + 1)).h (m.ix.I_1k k + j + 1)
        ≠ (s t).h (m.ix.I_1k k + j) + (s t).h (m.ix.I_1k k + j + 1) →
      waterIn m sec (s 0) k
        + ∑ t ∈ Finset.range n, (pipeSupply m (inp t) (s (t + 1)) k - endGain m (geo t) (s t) (s (t + 1)) k)
      < waterIn m sec (s n) k := by
  rw [C213_run c st he hk r]
  have dx : ∀ t, t < n → ∀ j, j < m.ix.nk k → 0 < m.dx (m.ix.i_1k k + j) := fun t ht j hj =>
    (r.physical t ht).dx_pos _ (by have := c.inN k hk; omega)
  have link : ∀ t, t < n → ∀ j, j < m.ix.nk k → 0 ≤ m.dx (m.ix.i_1k k + j) * excess (sec (m.ix.i_1k k + j))
      ((s t).h (m.ix.I_1k k + j)) ((s t).h (m.ix.I_1k k + j + 1)) ((s (t + 1)).h (m.ix.I_1k k + j))
      ((s (t + 1)).h (m.ix.I_1k k + j + 1)) := fun t ht j hj => by
    obtain ⟨a, b⟩ := o.levels t ht.le j hj
    obtain ⟨a', b'⟩ := o.levels (t + 1) ht j hj
    obtain ⟨f, nc⟩ := hs j hj
    rw [o.regular j hj]
    exact mul_nonneg (dx t ht j hj).le (C213_widening (o.valid j hj) f a b a'.le b'.le
      ((chord_mono (o.valid j hj) f nc).monotoneOn _)).1
  have nonneg : ∀ t ∈ Finset.range n, 0 ≤ created m sec (s t) (s (t + 1)) k := fun t ht =>
    Finset.sum_nonneg fun j hj => link t (Finset.mem_range.mp ht) j (Finset.mem_range.mp hj)
  refine ⟨by have := Finset.sum_nonneg nonneg; linarith, fun t ht j hj hsh hne => ?_⟩
  have pos : 0 < created m sec (s t) (s (t + 1)) k := by
    refine Finset.sum_pos' (fun j hj => link t ht j (Finset.mem_range.mp hj)) ⟨j, Finset.mem_range.2 hj, ?_⟩
    obtain ⟨a, b⟩ := o.levels t ht.le j hj
    obtain ⟨a', b'⟩ := o.levels (t + 1) ht j hj
    rw [o.regular j hj]
    exact mul_pos (dx t ht j hj) (C213_sloping (o.valid j hj) hsh a b a'.le b'.le hne)
  have := Finset.sum_pos' nonneg ⟨t, Finset.mem_range.2 ht, pos⟩
  linarith

/-- **C213 (run of a circular pipe).** A pipe of circular links whose levels stay in the lower half never loses water and
gains some in every step in which a level changes; one whose levels stay in the upper half, below the crown, never gains any and
loses some in every such step. -/
theorem C213_circular_run (c : m.Consistent) (st : StartTables m) (he : m.end_method = .b) {n : ℕ} {s : ℕ → Hyd}
    {geo : ℕ → Geo} {inp : ℕ → Inputs} {wk : ℕ → Work} {co : ℕ → Coef ℝ} {x : ℕ → ℕ → ℝ} {sec : ℕ → Section} {k : ℕ}
    (hk : k < m.ix.NK) (r : PipeRun m n s geo inp wk co x sec k) {gp : ℕ → GP}
    (o : OpenPipe m n s sec k (fun _ => .circular) gp) :
    let level := fun t j => ((s t).h (m.ix.I_1k k + j) + (s t).h (m.ix.I_1k k + j + 1)) / 2
    let moved := ∃ t, t < n ∧ ∃ j, j < m.ix.nk k ∧ level (t + 1) j ≠ level t j
    let due := waterIn m sec (s 0) k
      + ∑ t ∈ Finset.range n, (pipeSupply m (inp t) (s (t + 1)) k - endGain m (geo t) (s t) (s (t + 1)) k)
    ((∀ t, t ≤ n → ∀ j, j < m.ix.nk k → level t j ≤ (gp j).g1 / 2) →
      due ≤ waterIn m sec (s n) k ∧ (moved → due < waterIn m sec (s n) k)) ∧
    ((∀ t, t ≤ n → ∀ j, j < m.ix.nk k → (gp j).g1 / 2 ≤ level t j) →
      waterIn m sec (s n) k ≤ due ∧ (moved → waterIn m sec (s n) k < due)) := by
  intro level moved due
  have run : waterIn m sec (s n) k = due + ∑ t ∈ Finset.range n, created m sec (s t) (s (t + 1)) k :=
    C213_run c st he hk r
  have dx : ∀ t, t < n → ∀ j, j < m.ix.nk k → 0 < m.dx (m.ix.i_1k k + j) := fun t ht j hj =>
    (r.physical t ht).dx_pos _ (by have := c.inN k hk; omega)
  let ex := fun t j => excess (sec (m.ix.i_1k k + j))
      ((s t).h (m.ix.I_1k k + j)) ((s t).h (m.ix.I_1k k + j + 1)) ((s (t + 1)).h (m.ix.I_1k k + j))
      ((s (t + 1)).h (m.ix.I_1k k + j + 1))
  have zero : ∀ t, t < n → ∀ j, j < m.ix.nk k → level (t + 1) j = level t j → ex t j = 0 := fun t ht j hj e => by
    obtain ⟨a, b⟩ := o.levels t ht.le j hj
    obtain ⟨a', b'⟩ := o.levels (t + 1) ht j hj
    have e : ((s (t + 1)).h (m.ix.I_1k k + j) + (s (t + 1)).h (m.ix.I_1k k + j + 1)) / 2
      = ((s t).h (m.ix.I_1k k + j) + (s t).h (m.ix.I_1k k + j + 1)) / 2 := e
    simp only [ex]
    rw [o.regular j hj, C213_excess (o.valid j hj) trivial a b a'.le b'.le, e, intervalIntegral.integral_same]
  have sgn : ∀ t, t < n → ∀ j, j < m.ix.nk k → level (t + 1) j ≠ level t j →
      (level t j ≤ (gp j).g1 / 2 → level (t + 1) j ≤ (gp j).g1 / 2 → 0 < ex t j) ∧
      ((gp j).g1 / 2 ≤ level t j → (gp j).g1 / 2 ≤ level (t + 1) j → ex t j < 0) := fun t ht j hj ne => by
    obtain ⟨a, b⟩ := o.levels t ht.le j hj
    obtain ⟨a', b'⟩ := o.levels (t + 1) ht j hj
    have h := C213_circle (o.valid j hj).1 a b a'.le b'.le (fun e => ne (by simp only [level, e]))
    simp only [ex, level]
    rw [o.regular j hj]
    exact ⟨fun u v => h.1 (by linarith) (by linarith), fun u v => h.2 (by linarith) (by linarith)⟩
  constructor
  · intro low
    have link : ∀ t, t < n → ∀ j, j < m.ix.nk k → 0 ≤ ex t j := fun t ht j hj => by
      by_cases e : level (t + 1) j = level t j
      · rw [zero t ht j hj e]
      · exact ((sgn t ht j hj e).1 (low t ht.le j hj) (low (t + 1) ht j hj)).le
    have nonneg : ∀ t ∈ Finset.range n, 0 ≤ created m sec (s t) (s (t + 1)) k := fun t ht =>
      Finset.sum_nonneg fun j hj => mul_nonneg (dx t (Finset.mem_range.mp ht) j (Finset.mem_range.mp hj)).le
        (link t (Finset.mem_range.mp ht) j (Finset.mem_range.mp hj))
    refine ⟨by have := Finset.sum_nonneg nonneg; linarith, fun ⟨t, ht, j, hj, ne⟩ => ?_⟩
    have pos : 0 < created m sec (s t) (s (t + 1)) k :=
      Finset.sum_pos' (fun j hj => mul_nonneg (dx t ht j (Finset.mem_range.mp hj)).le
        (link t ht j (Finset.mem_range.mp hj))) ⟨j, Finset.mem_range.2 hj, mul_pos (dx t ht j hj)
          ((sgn t ht j hj ne).1 (low t ht.le j hj) (low (t + 1) ht j hj))⟩
    have := Finset.sum_pos' nonneg ⟨t, Finset.mem_range.2 ht, pos⟩
    linarith
  · intro high
    have link : ∀ t, t < n → ∀ j, j < m.ix.nk k → ex t j ≤ 0 := fun t ht j hj => by
      by_cases e : level (t + 1) j = level t j
      · rw [zero t ht j hj e]
      · exact ((sgn t ht j hj e).2 (high t ht.le j hj) (high (t + 1) ht j hj)).le
    have nonpos : ∀ t ∈ Finset.range n, created m sec (s t) (s (t + 1)) k ≤ 0 := fun t ht =>
      Finset.sum_nonpos fun j hj => mul_nonpos_of_nonneg_of_nonpos
        (dx t (Finset.mem_range.mp ht) j (Finset.mem_range.mp hj)).le
        (link t (Finset.mem_range.mp ht) j (Finset.mem_range.mp hj))
    refine ⟨by have := Finset.sum_nonpos nonpos; linarith, fun ⟨t, ht, j, hj, ne⟩ => ?_⟩
    have neg : created m sec (s t) (s (t + 1)) k < 0 :=
      Finset.sum_neg' (fun j hj => mul_nonpos_of_nonneg_of_nonpos (dx t ht j (Finset.mem_range.mp hj)).le
        (link t ht j (Finset.mem_range.mp hj))) ⟨j, Finset.mem_range.2 hj, mul_neg_of_pos_of_neg (dx t ht j hj)
          ((sgn t ht j hj ne).2 (high t ht.le j hj) (high (t + 1) ht j hj))⟩
    have := Finset.sum_neg' nonpos ⟨t, Finset.mem_range.2 ht, neg⟩
    linarith

/-! ### A concrete case -/

theorem triSound : Sound (inModel true) rePlan := by
  refine ⟨inConsistent true, ?_, ?_, ?_, ?_, ?_, ?_, ?_, ?_, ?_, ?_, ?_, ?_, ?_, ?_, ?_, ?_⟩
  all_goals first
    | (intros; simp [inModel, reModel, rePlan, Section.Usable, Wettable, Valid, Storage.Usable]; done)
    | (norm_num [inModel, reModel, rePlan, Section.Usable, Wettable, Valid, Storage.Usable])

/-- A triangular channel between two superjunctions held at one metre, filled to the depth `d`: one unclipped step fills it
up to one metre. -/
theorem tri_filled {d : ℝ} (hd : 1 / 100 ≤ d) {Ao : ℕ → ℝ} {co : Coef ℝ} {x : ℕ → ℝ} {inp : Inputs}
    (good : GoodInputs (inModel true) rePlan inp) (held : ∀ i, inp.H_bc.getD (fun _ => 1) i = 1)
    (p : Pass (inModel true) ((inModel true).geoOf rePlan (Hidden.fresh (inGiven d).Ao) Ao ((inModel true).start (inGiven d)))
      inp freshWork ((inModel true).start (inGiven d)) ((inModel true).start (inGiven d)) co x) :
    let geo := (inModel true).geoOf rePlan (Hidden.fresh (inGiven d).Ao) Ao ((inModel true).start (inGiven d))
    let nx := (inModel true).advance geo inp freshWork ((inModel true).start (inGiven d)) co x
    PhysicalStep (inModel true) geo inp ∧
    Unclipped (inModel true) x nx (endDepthU (inModel true) geo freshWork ((inModel true).start (inGiven d)) co nx.H)
      (endDepthD (inModel true) geo freshWork ((inModel true).start (inGiven d)) co nx.H) ∧ nx.h 0 = 1 ∧ nx.h 1 = 1 := by
  intro geo nx
  have wet : ∀ I, (inModel true).min_depth ≤ (inGiven d).hJ I := fun _ => by simpa [inModel, reModel, inGiven] using hd
  have ps := physical_geoOf triSound good (Hidden.fresh (inGiven d).Ao) Ao
    (s := (inModel true).start (inGiven d)) wet
  have hgeo : (inModel true).geoOf rePlan (Hidden.fresh (inGiven d).Ao) Ao ((inModel true).start (inGiven d)) = geo := rfl
  rw [hgeo] at p ps
  have au : 0 < geo.A_u 0 := by
    rw [← hgeo]
    show 0 < upTo 1 _ 0
    rw [upTo_of_lt _ (by norm_num)]
    refine Section.A_pos (md := (inModel true).min_depth) (by norm_num [inModel, reModel])
      (triSound.sec 0 (by norm_num [inModel, reModel])) (wet 0) ?_
    simp only [Hidden.fresh, inStart]
    norm_num [inModel, reModel]
  have ad : 0 < geo.A_d 0 := by
    rw [← hgeo]
    show 0 < upTo 1 _ 0
    rw [upTo_of_lt _ (by norm_num)]
    refine Section.A_pos (md := (inModel true).min_depth) (by norm_num [inModel, reModel])
      (triSound.sec 0 (by norm_num [inModel, reModel])) (wet 0) ?_
    simp only [Hidden.fresh, inStart]
    norm_num [inModel, reModel]
  have x1 : ∀ i, i < 2 → x i = 1 := by
    intro i hi
    have h := ((solves_iff ((inModel true).net geo inp freshWork _ co) inp.dt freshWork.mats (freshClean _).mats
      (wired (inConsistent true)) _ _ _ _).1 p.solve i hi).1 rfl
    have e : ((inModel true).start (inGiven d)).H = fun _ => 1 := funext fun j => inStart true d j
    rw [h, e, held]
  have ends := C04_end_depths (wk := freshWork) (cur := (inModel true).start (inGiven d)) (co := co) (x := x) ps au ad
  have rep := fun uc => C04_reported_end_depths (inp := inp) (inConsistent true)
    (geo := geo) (wk := freshWork) (cur := (inModel true).start (inGiven d)) (co := co) (x := x) uc
    (show 0 < (inModel true).ix.NK by norm_num [inModel, reModel])
  have fx : ∀ i, i < 2 → nx.H i = 1 := by
    intro i hi
    show min (max (x i) 0) (0 + 10) = 1
    rw [x1 i hi]; norm_num
  have hnx : (inModel true).advance geo inp freshWork ((inModel true).start (inGiven d)) co x = nx := rfl
  rw [hnx] at ends rep
  have j0 : (inModel true).Ju 0 = 0 := rfl
  have j1 : (inModel true).Jd 0 = 1 := rfl
  have zu : (inModel true).z_uk 0 = 0 := rfl
  have zd : (inModel true).z_dk 0 = 0 := rfl
  have q0 : ((inModel true).start (inGiven d)).Qu 0 = 0 := rfl
  have q1 : ((inModel true).start (inGiven d)).Qd 0 = 0 := rfl
  simp only [j0, j1, zu, zd, q0, q1, inStart, fx 0 (by norm_num), fx 1 (by norm_num)] at ends
  norm_num at ends
  have uc : Unclipped (inModel true) x nx (endDepthU (inModel true) geo freshWork ((inModel true).start (inGiven d)) co nx.H)
      (endDepthD (inModel true) geo freshWork ((inModel true).start (inGiven d)) co nx.H) := by
    refine ⟨fun j hj => ?_, fun k hk => ?_, fun k hk j h1 h2 => ?_⟩
    · rw [x1 j hj]; norm_num [inModel, reModel]
    · have : k = 0 := by simp only [inModel, reModel] at hk; omega
      subst this
      rw [ends.1, ends.2]
      norm_num [inModel, reModel]
    · simp only [inModel, reModel] at h2; omega
  obtain ⟨r0, r1⟩ := rep uc
  rw [ends.1] at r0
  rw [ends.2] at r1
  exact ⟨ps, uc, r0, r1⟩

/-- **C213, refuted: the water read off the sections does not follow the flows.** The channel half full, heads held at
one metre, ten seconds: five cubic metres flow in, the end stretches have no length, and the channel holds seven and a half cubic
metres more. -/
theorem C213_refuted : ∃ s geo inp wk co x, PipeRun (inModel true) 1 s geo inp wk co x rePlan.sec 0 ∧
    OpenPipe (inModel true) 1 s rePlan.sec 0 (fun _ => .triangular) (fun _ => ⟨8, 1, 0, 0, 0, 0, 0⟩) ∧
    pipeSupply (inModel true) (inp 0) (s 1) 0 = 5 ∧ endGain (inModel true) (geo 0) (s 0) (s 1) 0 = 0 ∧
    waterIn (inModel true) rePlan.sec (s 0) 0 = 5 / 2 ∧ waterIn (inModel true) rePlan.sec (s 1) 0 = 10 := by
  have good : GoodInputs (inModel true) rePlan { reInp 1 with dt := 10, H_bc := none } :=
    ⟨by norm_num, fun p hp => by simp [inModel, reModel] at hp, fun a ha => by simp [inModel, reModel] at ha⟩
  obtain ⟨o', h⟩ := C105_step_succeeds triSound good true (o := ⟨(inModel true).start (inGiven (1 / 2)),
    (inModel true).start (inGiven (1 / 2)), freshWork, Hidden.fresh (inGiven (1 / 2)).Ao⟩)
    ⟨freshClean _, fun _ => by norm_num [inModel, reModel, Model.start, inGiven]⟩
  obtain ⟨Ao, co, x, -, p, rfl⟩ := h
  have f := tri_filled (d := 1 / 2) (by norm_num) good (fun _ => rfl) p
  have hB : WidthsOf (inModel true) ((inModel true).geoOf rePlan (Hidden.fresh (inGiven (1 / 2)).Ao) Ao
      ((inModel true).start (inGiven (1 / 2)))) rePlan.sec ((inModel true).start (inGiven (1 / 2))) 0 := by
    refine widthsOf_geoOf (m := inModel true) ⟨inTables true, fun k hk j hj => ?_⟩ _ _ _ (by norm_num [inModel, reModel])
    simp [inModel, reModel, rePlan]
  have pre : ∀ I, ((inModel true).start (inGiven (1 / 2))).h I = 1 / 2 := fun _ => rfl
  have p : Pass (inModel true) ((inModel true).geoOf rePlan (Hidden.fresh (inGiven (1 / 2)).Ao) Ao
      ((inModel true).start (inGiven (1 / 2)))) { reInp 1 with dt := 10, H_bc := none } freshWork
      ((inModel true).start (inGiven (1 / 2))) ((inModel true).start (inGiven (1 / 2))) co x := p
  generalize (inModel true).geoOf rePlan (Hidden.fresh (inGiven (1 / 2)).Ao) Ao ((inModel true).start (inGiven (1 / 2))) = geo
    at f hB p
  obtain ⟨ps, uc, r0, r1⟩ := f
  have step := C213_step (inConsistent true) (inTables true) ps p rfl uc
    (show 0 < (inModel true).ix.NK by norm_num [inModel, reModel]) hB
  have clean : CleanWork (inModel true) freshWork.mats := freshClean _
  generalize hs0 : (inModel true).start (inGiven (1 / 2)) = s0 at *
  generalize hinp : ({ reInp 1 with dt := 10, H_bc := none } : Inputs) = inp at *
  generalize hs1 : (inModel true).advance geo inp freshWork s0 co x = s1 at *
  have N : (inModel true).ix.nk 0 = 1 := rfl
  have I : (inModel true).ix.I_1k 0 = 0 := rfl
  have i1 : (inModel true).ix.i_1k 0 = 0 := rfl
  have w0 : waterIn (inModel true) rePlan.sec s0 0 = 5 / 2 := by
    norm_num [waterIn, N, I, i1, Finset.sum_range_succ, pre, rePlan, Section.A, Geometry.area, triangularA, depth, wet, inModel, reModel]
  have w1 : waterIn (inModel true) rePlan.sec s1 0 = 10 := by
    norm_num [waterIn, N, I, i1, Finset.sum_range_succ, r0, r1, rePlan, Section.A, Geometry.area, triangularA, depth, wet, inModel, reModel]
  have cr : created (inModel true) rePlan.sec s0 s1 0 = 5 / 2 := by
    norm_num [created, excess, N, I, i1, r0, r1, pre, rePlan, Section.A, Section.B, Geometry.area, topWidth, triangularA,
      triangularB, depth, wet, inModel, reModel]
  have eg : endGain (inModel true) geo s0 s1 0 = 0 := by
    simp [endGain, inModel]
  refine ⟨fun t => if t = 0 then s0 else s1, fun _ => geo, fun _ => inp,
    fun t => if t = 0 then freshWork else (inModel true).work geo inp freshWork s0 co, fun _ => co, fun _ => x,
    ⟨⟨clean, fun t _ => ps.dt_pos, fun t ht => ?_, fun t ht => ?_, fun t ht => ?_⟩, fun t _ => ps, fun t ht => ?_,
      fun t ht => ?_⟩, ⟨fun _ _ => rfl, fun _ _ => ⟨by norm_num, by norm_num⟩, fun t ht j hj => ?_⟩, ?_, eg, w0, w1⟩
  · obtain rfl : t = 0 := by omega
    exact p
  · obtain rfl : t = 0 := by omega
    exact hs1.symm
  · obtain rfl : t = 0 := by omega
    rfl
  · obtain rfl : t = 0 := by omega
    exact uc
  · obtain rfl : t = 0 := by omega
    exact hB
  · obtain rfl : j = 0 := by rw [N] at hj; omega
    obtain rfl | rfl : t = 0 ∨ t = 1 := by omega
    · norm_num [I, pre]
    · norm_num [I, r0, r1]
  · show pipeSupply (inModel true) inp s1 0 = 5
    rw [w0, w1, eg, cr] at step
    linarith

/-- A circular pipe one metre high: every change of the level in the lower half creates water, every one in the upper
half destroys some. -/
example : 0 < excess (.regular .circular ⟨1, 0, 0, 0, 0, 0, 0⟩) (1 / 4) (1 / 4) (1 / 8) (1 / 8) ∧
    excess (.regular .circular ⟨1, 0, 0, 0, 0, 0, 0⟩) (3 / 4) (3 / 4) (7 / 8) (7 / 8) < 0 :=
  ⟨(C213_circle (by norm_num) (by norm_num) (by norm_num) (by norm_num) (by norm_num) (by norm_num)).1
    (by norm_num) (by norm_num),
   (C213_circle (by norm_num) (by norm_num) (by norm_num) (by norm_num) (by norm_num) (by norm_num)).2
    (by norm_num) (by norm_num)⟩

end

end Pipedream.Step
