import Verif.PhysicsProps
import Verif.StorageProps

/-!
# C101: stored volume over a run

Each step balances a superjunction with the surface area at the old head, so the volume read off the
storage curve does not follow the water that was delivered exactly. For functional storages
(`A = a·hᵇ + c`) the difference is non-negative in every step, bounded by the area change times the head
change, zero exactly for vertical walls, and accumulates along a run of any length.
-/

namespace Pipedream.Step

open Pipedream.Sweep Pipedream.Link Pipedream.Superlink Pipedream.Control Pipedream.Network Pipedream.Interp

variable {m : Model}

/-! ### Specification -/

/-- `n` consecutive steps with one pass each (`num_iter = 1`), every one starting from the state the previous
one left; geometry, inputs and step sizes are free (superlink.py 4085–4150). -/
structure StepRun (m : Model) (n : ℕ) (s : ℕ → Hyd) (geo : ℕ → Geo) (inp : ℕ → Inputs) (wk : ℕ → Work)
    (co : ℕ → Coef ℝ) (x : ℕ → ℕ → ℝ) : Prop where
  clean : CleanWork m (wk 0).mats
  dt_pos : ∀ t, t < n → 0 < (inp t).dt
  pass : ∀ t, t < n → Pass m (geo t) (inp t) (wk t) (s t) (s t) (co t) (x t)
  next : ∀ t, t < n → s (t + 1) = m.advance (geo t) (inp t) (wk t) (s t) (co t) (x t)
  work : ∀ t, t < n → wk (t + 1) = m.work (geo t) (inp t) (wk t) (s t) (co t)

/-- Net flow of controls into superjunction `i`: what the linear relations used by the head equations carry. -/
noncomputable def controlIntake (n : ℕ) (Ju Jd : ℕ → ℕ) (l : ℕ → Lin) (x : ℕ → ℝ) (i : ℕ) : ℝ :=
  ∑ k ∈ Finset.range n, ((if Jd k = i then (l k).eval (x (Ju k)) (x (Jd k)) else 0)
    - (if Ju k = i then (l k).eval (x (Ju k)) (x (Jd k)) else 0))

/-- Rate at which water enters the storage of superjunction `i` during a step: external inflow, plus what
superlinks, orifices, weirs and pumps bring and take at the new heads, minus what fills the wetted end
stretches of the superlinks ending there. -/
noncomputable def intake (m : Model) (geo : Geo) (inp : Inputs) (wk : Work) (cur : Hyd) (co : Coef ℝ)
    (x : ℕ → ℝ) (i : ℕ) : ℝ :=
  inp.Q_in i + ∑ k ∈ Finset.range m.ix.NK,
      ((if m.Jd k = i then Qdk (m.endRec wk co k) (m.headCoef geo cur k) (x (m.Ju k)) (x (m.Jd k)) else 0)
      - (if m.Ju k = i then Quk (m.endRec wk co k) (m.headCoef geo cur k) (x (m.Ju k)) (x (m.Jd k)) else 0))
    + controlIntake m.n_o m.Juo m.Jdo (m.oLin geo inp wk cur) x i
    + controlIntake m.n_w m.Juw m.Jdw (m.wLin inp wk cur) x i
    + controlIntake m.n_p m.Jup m.Jdp (m.pLin inp wk cur) x i
    - (∑ k ∈ Finset.range m.ix.NK,
        ((if m.Ju k = i then endArea (cur.H i) (m.z_uk k) (m.dx_uk k) (geo.B_u k) else 0)
        + (if m.Jd k = i then endArea (cur.H i) (m.z_dk k) (m.dx_dk k) (geo.B_d k) else 0)))
      * ((x i - cur.H i) / inp.dt)

/-- Superjunction `i` is a free functional storage `A = a·hᵇ + c`, wet and unclipped throughout the run, and
each step uses the area at the head it starts from (nsuperlink.py 666–697). -/
structure FunctionalStorage (m : Model) (n : ℕ) (s : ℕ → Hyd) (geo : ℕ → Geo) (x : ℕ → ℕ → ℝ) (i : ℕ)
    (a b c : ℝ) : Prop where
  hi : i < m.M
  free : m.bc i = false
  area : ∀ t, t < n → (geo t).As i = functionalArea a b c (storageDepth ((s t).H i) (m.z_inv i) m.min_depth)
  unclipped : ∀ t, t < n → m.z_inv i ≤ x t i ∧ x t i ≤ m.z_inv i + m.max_depth i
  wet : ∀ t, t ≤ n → m.z_inv i + m.min_depth ≤ (s t).H i
  min_depth : 0 ≤ m.min_depth

/-- Depth of water in superjunction `i`. -/
def depthAt (m : Model) (s : Hyd) (i : ℕ) : ℝ := s.H i - m.z_inv i

/-- Volume stored at that depth. -/
noncomputable def storedAt (m : Model) (s : Hyd) (i : ℕ) (a b c : ℝ) : ℝ := functionalVolume a b c (depthAt m s i)

/-- Surface area at that depth. -/
noncomputable def areaAt (m : Model) (s : Hyd) (i : ℕ) (a b c : ℝ) : ℝ := functionalArea a b c (depthAt m s i)

/-! ### One step -/

variable {n : ℕ} {s : ℕ → Hyd} {geo : ℕ → Geo} {inp : ℕ → Inputs} {wk : ℕ → Work} {co : ℕ → Coef ℝ}
  {x : ℕ → ℕ → ℝ} {i : ℕ} {a b c : ℝ}

theorem StepRun.cleanAt (r : StepRun m n s geo inp wk co x) : ∀ t, t ≤ n → CleanWork m (wk t).mats := by
  intro t
  induction t with
  | zero => intro _; exact r.clean
  | succ t ih => intro ht; rw [r.work t ht]; exact (ih (by omega)).next

theorem wet_depth (f : FunctionalStorage m n s geo x i a b c) {t : ℕ} (ht : t ≤ n) :
    0 ≤ depthAt m (s t) i ∧ storageDepth ((s t).H i) (m.z_inv i) m.min_depth = depthAt m (s t) i := by
  have h := f.wet t ht
  have h0 := f.min_depth
  refine ⟨by unfold depthAt; linarith, ?_⟩
  rw [storageDepth, max_eq_left (by linarith)]; rfl

theorem intake_eq {geo : Geo} {inp : Inputs} {wk : Work} {cur : Hyd} {co : Coef ℝ} {x : ℕ → ℝ} (dt0 : inp.dt ≠ 0)
    (i : ℕ) : intake m geo inp wk cur co x i
      = inp.Q_in i + (m.net geo inp wk cur co).links.inflow x i + (m.net geo inp wk cur co).orifices.inflow x i
        + (m.net geo inp wk cur co).weirs.inflow x i + (m.net geo inp wk cur co).pumps.inflow x i
        - (m.net geo inp wk cur co).links.xiSum i * (x i - cur.H i) := by
  have e1 : inp.dt * (m.net geo inp wk cur co).links.xiSum i = ∑ k ∈ Finset.range m.ix.NK,
        ((if m.Ju k = i then endArea (cur.H i) (m.z_uk k) (m.dx_uk k) (geo.B_u k) else 0)
        + (if m.Jd k = i then endArea (cur.H i) (m.z_dk k) (m.dx_dk k) (geo.B_d k) else 0)) := by
    simp only [Links.xiSum, Finset.mul_sum]
    apply Finset.sum_congr rfl
    intro k _
    show inp.dt * ((if m.Ju k = i then xi (m.dx_uk k) (geo.B_u k) (theta (cur.H (m.Ju k)) (m.z_uk k)) inp.dt else 0)
      + (if m.Jd k = i then xi (m.dx_dk k) (geo.B_d k) (theta (cur.H (m.Jd k)) (m.z_dk k)) inp.dt else 0)) = _
    rw [mul_add, mul_ite, mul_ite, mul_zero, xi_endArea dt0, xi_endArea dt0]
    congr 1
    · by_cases h : m.Ju k = i
      · rw [if_pos h, if_pos h, h]
      · rw [if_neg h, if_neg h]
    · by_cases h : m.Jd k = i
      · rw [if_pos h, if_pos h, h]
      · rw [if_neg h, if_neg h]
  unfold intake
  rw [← e1]
  have e2 : inp.dt * (m.net geo inp wk cur co).links.xiSum i * ((x i - cur.H i) / inp.dt)
      = (m.net geo inp wk cur co).links.xiSum i * (x i - cur.H i) := by field_simp
  rw [e2]
  rfl

/-- **C101 (what a step balances).** The water delivered in a step is the area at the old depth times the
rise of the water level. -/
theorem C101_delivered (con : m.Consistent) (r : StepRun m n s geo inp wk co x)
    (f : FunctionalStorage m n s geo x i a b c) {t : ℕ} (ht : t < n) :
    (inp t).dt * intake m (geo t) (inp t) (wk t) (s t) (co t) (x t) i
      = areaAt m (s t) i a b c * (depthAt m (s (t + 1)) i - depthAt m (s t) i) := by
  obtain ⟨h1, h2⟩ := C07_step_local con (r.cleanAt t ht.le) (r.pass t ht) i f.hi f.free (f.unclipped t ht)
  have hn : (s (t + 1)).H i = x t i := by rw [r.next t ht, h1]
  have dt0 := (r.dt_pos t ht).ne'
  unfold Network.Balanced at h2
  have e : (m.net (geo t) (inp t) (wk t) (s t) (co t)).As i = areaAt m (s t) i a b c := by
    show (geo t).As i = _
    rw [f.area t ht, (wet_depth f ht.le).2]; rfl
  rw [e] at h2
  rw [intake_eq dt0]
  unfold depthAt
  rw [hn]
  field_simp at h2
  linear_combination -h2

theorem functional_gain (ha : 0 ≤ a) (hb : 0 ≤ b) {u v : ℝ} (hu : 0 ≤ u) (hv : 0 ≤ v) :
    0 ≤ functionalVolume a b c v - functionalVolume a b c u - functionalArea a b c u * (v - u) ∧
    functionalVolume a b c v - functionalVolume a b c u - functionalArea a b c u * (v - u)
      ≤ (functionalArea a b c v - functionalArea a b c u) * (v - u) := by
  rcases le_total u v with h | h
  · obtain ⟨h1, h2⟩ := C33_functional_growth (c := c) ha hb hu h
    constructor <;> linarith
  · obtain ⟨h1, h2⟩ := C33_functional_growth (c := c) ha hb hv h
    constructor <;> nlinarith

theorem functional_gain_strict (ha : 0 < a) (hb : 0 < b) {u v : ℝ} (hu : 0 ≤ u) (hv : 0 ≤ v) (hne : u ≠ v) :
    0 < functionalVolume a b c v - functionalVolume a b c u - functionalArea a b c u * (v - u) := by
  -- halve the step: the gain over `u → w → v` exceeds the sum of two non-negative gains strictly
  have area_lt : ∀ p q : ℝ, 0 ≤ p → p < q → functionalArea a b c p < functionalArea a b c q := by
    intro p q hp hpq
    rw [functionalArea, functionalArea, if_neg (not_lt.mpr hp), if_neg (not_lt.mpr (hp.trans hpq.le))]
    have := mul_lt_mul_of_pos_left (Real.rpow_lt_rpow hp hpq hb) ha
    linarith
  set w := (u + v) / 2 with hw
  have hw0 : 0 ≤ w := by rw [hw]; linarith
  obtain ⟨g1, -⟩ := functional_gain (c := c) ha.le hb.le hu hw0
  obtain ⟨g2, -⟩ := functional_gain (c := c) ha.le hb.le hw0 hv
  have e1 : w - u = (v - u) / 2 := by rw [hw]; ring
  have e2 : v - w = (v - u) / 2 := by rw [hw]; ring
  rw [e1] at g1
  rw [e2] at g2
  have key : 0 < (functionalArea a b c w - functionalArea a b c u) * (v - u) := by
    rcases lt_or_gt_of_ne hne with h | h
    · have := area_lt u w hu (by rw [hw]; linarith)
      exact mul_pos (by linarith) (by linarith)
    · have := area_lt w u hw0 (by rw [hw]; linarith)
      exact mul_pos_of_neg_of_neg (by linarith) (by linarith)
  nlinarith

/-! ### C101 -/

/-- Water delivered to superjunction `i` in the first `n` steps. -/
noncomputable def delivered (m : Model) (geo : ℕ → Geo) (inp : ℕ → Inputs) (wk : ℕ → Work) (s : ℕ → Hyd)
    (co : ℕ → Coef ℝ) (x : ℕ → ℕ → ℝ) (i n : ℕ) : ℝ :=
  ∑ t ∈ Finset.range n, (inp t).dt * intake m (geo t) (inp t) (wk t) (s t) (co t) (x t) i

/-- The discrepancy of a run is the sum of the discrepancies of its steps. -/
theorem C101_discrepancy (con : m.Consistent) (r : StepRun m n s geo inp wk co x)
    (f : FunctionalStorage m n s geo x i a b c) :
    storedAt m (s n) i a b c - storedAt m (s 0) i a b c - delivered m geo inp wk s co x i n
      = ∑ t ∈ Finset.range n, (storedAt m (s (t + 1)) i a b c - storedAt m (s t) i a b c
          - areaAt m (s t) i a b c * (depthAt m (s (t + 1)) i - depthAt m (s t) i)) := by
  rw [delivered, Finset.sum_congr rfl (fun t ht => C101_delivered con r f (Finset.mem_range.mp ht)),
    Finset.sum_sub_distrib, Finset.sum_range_sub (fun t => storedAt m (s t) i a b c)]

/-- **C101 (partial: bounds).** Over any run the volume of a functional storage with non-negative
coefficients grows by at least the water delivered, and by at most that plus the sum of area change times
level change: the error is of second order in the level changes. Missing: equality, which holds only for
vertical walls (`C101_vertical_walls`, `C101_creates_water`). -/
theorem C101_bounds_partial (con : m.Consistent) (r : StepRun m n s geo inp wk co x)
    (f : FunctionalStorage m n s geo x i a b c) (ha : 0 ≤ a) (hb : 0 ≤ b) :
    delivered m geo inp wk s co x i n ≤ storedAt m (s n) i a b c - storedAt m (s 0) i a b c ∧
    storedAt m (s n) i a b c - storedAt m (s 0) i a b c ≤ delivered m geo inp wk s co x i n
      + ∑ t ∈ Finset.range n, (areaAt m (s (t + 1)) i a b c - areaAt m (s t) i a b c)
          * (depthAt m (s (t + 1)) i - depthAt m (s t) i) := by
  have d := C101_discrepancy con r f
  have g : ∀ t ∈ Finset.range n, _ := fun t ht =>
    functional_gain (c := c) ha hb (wet_depth f (Finset.mem_range.mp ht).le).1
      (wet_depth f (t := t + 1) (Finset.mem_range.mp ht)).1
  have lo := Finset.sum_nonneg (fun t ht => (g t ht).1)
  have hi := Finset.sum_le_sum (fun t ht => (g t ht).2)
  simp only [storedAt, areaAt] at d ⊢
  constructor
  · linarith
  · linarith

/-- **C101 (vertical walls).** With a constant area the stored volume follows the delivered water exactly,
over runs of any length. -/
theorem C101_vertical_walls (con : m.Consistent) (r : StepRun m n s geo inp wk co x)
    (f : FunctionalStorage m n s geo x i 0 b c) (hb : 0 ≤ b) :
    storedAt m (s n) i 0 b c - storedAt m (s 0) i 0 b c = delivered m geo inp wk s co x i n := by
  obtain ⟨h1, h2⟩ := C101_bounds_partial con r f le_rfl hb
  have z : ∑ t ∈ Finset.range n, (areaAt m (s (t + 1)) i 0 b c - areaAt m (s t) i 0 b c)
          * (depthAt m (s (t + 1)) i - depthAt m (s t) i) = 0 := by
    apply Finset.sum_eq_zero
    intro t ht
    have e : ∀ t, t ≤ n → areaAt m (s t) i 0 b c = c := by
      intro t ht
      rw [areaAt, functionalArea, if_neg (not_lt.mpr (wet_depth f ht).1)]; ring
    rw [e t (Finset.mem_range.mp ht).le, e (t + 1) (Finset.mem_range.mp ht)]; ring
  linarith

/-- **C101 is false.** In a storage that widens upwards every change of level creates water: the volume
grows by strictly more than was delivered as soon as one step moves the level. -/
theorem C101_creates_water (con : m.Consistent) (r : StepRun m n s geo inp wk co x)
    (f : FunctionalStorage m n s geo x i a b c) (ha : 0 < a) (hb : 0 < b)
    (hmove : ∃ t, t < n ∧ (s (t + 1)).H i ≠ (s t).H i) :
    delivered m geo inp wk s co x i n < storedAt m (s n) i a b c - storedAt m (s 0) i a b c := by
  obtain ⟨t0, ht0, hne⟩ := hmove
  have d := C101_discrepancy con r f
  have pos : 0 < ∑ t ∈ Finset.range n, (storedAt m (s (t + 1)) i a b c - storedAt m (s t) i a b c
          - areaAt m (s t) i a b c * (depthAt m (s (t + 1)) i - depthAt m (s t) i)) := by
    apply Finset.sum_pos'
    · intro t ht
      exact (functional_gain (c := c) ha.le hb.le (wet_depth f (Finset.mem_range.mp ht).le).1
        (wet_depth f (t := t + 1) (Finset.mem_range.mp ht)).1).1
    · refine ⟨t0, Finset.mem_range.mpr ht0, functional_gain_strict (c := c) ha hb (wet_depth f ht0.le).1
        (wet_depth f (t := t0 + 1) ht0).1 ?_⟩
      unfold depthAt
      intro h
      exact hne (by linarith)
  linarith

/-- **C101 (cycles).** Filling and emptying such a storage back to its first level yields a net withdrawal:
more water was taken out than put in. -/
theorem C101_cycle (con : m.Consistent) (r : StepRun m n s geo inp wk co x)
    (f : FunctionalStorage m n s geo x i a b c) (ha : 0 < a) (hb : 0 < b)
    (hmove : ∃ t, t < n ∧ (s (t + 1)).H i ≠ (s t).H i) (hback : (s n).H i = (s 0).H i) :
    delivered m geo inp wk s co x i n < 0 := by
  have h := C101_creates_water con r f ha hb hmove
  have e : storedAt m (s n) i a b c = storedAt m (s 0) i a b c := by unfold storedAt depthAt; rw [hback]
  linarith

/-! ### Non-vacuity: a funnel `A = h` filled by one unit and emptied by two -/

noncomputable def exTank : Model :=
  { exModel false with
    M := 1, N := 0, ix := { NK := 0, nk := fun _ => 1, I_1k := fun _ => 0, i_1k := fun _ => 0 }
    n_o := 0, n_w := 0, n_p := 0 }

noncomputable def exTankGeo (A : ℝ) : Geo := { exGeo with As := fun _ => A }

noncomputable def exTankInp (q : ℝ) : Inputs := { exInp with dt := 1, Q_in := fun _ => q }

noncomputable def exTankState : Hyd := { exStill with H := fun _ => 1 }

theorem exTankConsistent : exTank.Consistent := by
  refine ⟨⟨fun k hk => ?_, fun k k' hk => ?_, fun k k' hk => ?_⟩, fun k hk => ?_, fun k hk => ?_, fun k hk => ?_,
    fun k hk => ?_, fun k hk => ?_, fun k hk => ?_, fun k hk => ?_, fun k hk => ?_, fun k hk => ?_, fun k hk => ?_⟩
  all_goals exact absurd hk (Nat.not_lt_zero _)

theorem exTankClean : CleanWork exTank exWork.mats :=
  ⟨⟨fun _ _ _ _ => rfl⟩, ⟨fun _ _ _ _ => rfl, fun _ _ => rfl⟩, ⟨fun _ _ _ _ => rfl, fun _ _ => rfl⟩,
    ⟨fun _ _ _ _ => rfl, fun _ _ => rfl⟩⟩

theorem exTankPhysical {A q : ℝ} (hA : 0 < A) : PhysicalStep exTank (exTankGeo A) (exTankInp q) := by
  constructor <;> intros <;>
    first
    | exact hA
    | (exfalso; apply Nat.not_lt_zero; assumption)
    | norm_num [exTank, exTankGeo, exTankInp, exModel, exGeo, exInp]

/-- One step of the tank. -/
theorem exTankStep (wk : Work) (cw : CleanWork exTank wk.mats) (cur : Hyd) {A q : ℝ} (hA : 0 < A)
    (hr : 0 ≤ cur.H 0 + q / A ∧ cur.H 0 + q / A ≤ 10) :
    ∃ co x, Pass exTank (exTankGeo A) (exTankInp q) wk cur cur co x ∧ x 0 = cur.H 0 + q / A ∧
      (exTank.advance (exTankGeo A) (exTankInp q) wk cur co x).H 0 = cur.H 0 + q / A := by
  obtain ⟨co, x, p⟩ := C06_step_exists (prev := cur) (cur := cur) exTankConsistent (exTankPhysical hA) cw
    (fun i hi => absurd hi (Nat.not_lt_zero _))
  have hb := ((solves_iff (exTank.net (exTankGeo A) (exTankInp q) wk cur co) 1 wk.mats cw.mats
    (wired exTankConsistent) cur.H (exTankInp q).Q_in ((exTankInp q).H_bc.getD cur.H) x).mp p.solve 0
    (by norm_num [Model.net, exTank])).2 rfl
  have hx : x 0 = cur.H 0 + q / A := by
    simp only [Network.Balanced, Model.net, exTank, exTankGeo, exTankInp, Links.inflow, Links.xiSum, Ctrls.inflow,
      Finset.range_zero, Finset.sum_empty] at hb
    field_simp
    linarith
  refine ⟨co, x, p, hx, ?_⟩
  simp only [Model.advance, clipHead, hx]
  rw [max_eq_left (by simpa [exTank, exModel] using hr.1), min_eq_left (by simpa [exTank, exModel] using hr.2)]

/-- Fill by one, empty by two: the level returns to 1, so one unit was created. -/
example : ∃ s geo inp wk co x, StepRun exTank 2 s geo inp wk co x ∧
    FunctionalStorage exTank 2 s geo x 0 1 1 0 ∧ (s 1).H 0 = 2 ∧ (s 2).H 0 = 1 ∧ (s 0).H 0 = 1 := by
  obtain ⟨co0, x0, p0, hx0, h0⟩ := exTankStep exWork exTankClean exTankState (A := 1) (q := 1) one_pos
    (by norm_num [exTankState])
  obtain ⟨co1, x1, p1, hx1, h1⟩ := exTankStep
    (exTank.work (exTankGeo 1) (exTankInp 1) exWork exTankState co0) exTankClean.next
    (exTank.advance (exTankGeo 1) (exTankInp 1) exWork exTankState co0 x0) (A := 2) (q := -2) two_pos
    (by rw [h0]; norm_num [exTankState])
  rw [h0] at hx1 h1
  have hz : exTankState.H 0 = 1 := rfl
  rw [hz] at hx0 h0 hx1 h1
  norm_num at hx0 h0 hx1 h1
  refine ⟨fun t => if t = 0 then exTankState else
      if t = 1 then exTank.advance (exTankGeo 1) (exTankInp 1) exWork exTankState co0 x0
      else exTank.advance (exTankGeo 2) (exTankInp (-2))
        (exTank.work (exTankGeo 1) (exTankInp 1) exWork exTankState co0)
        (exTank.advance (exTankGeo 1) (exTankInp 1) exWork exTankState co0 x0) co1 x1,
    fun t => if t = 0 then exTankGeo 1 else exTankGeo 2, fun t => if t = 0 then exTankInp 1 else exTankInp (-2),
    fun t => if t = 0 then exWork else
      if t = 1 then exTank.work (exTankGeo 1) (exTankInp 1) exWork exTankState co0
      else exTank.work (exTankGeo 2) (exTankInp (-2)) (exTank.work (exTankGeo 1) (exTankInp 1) exWork exTankState co0)
        (exTank.advance (exTankGeo 1) (exTankInp 1) exWork exTankState co0 x0) co1,
    fun t => if t = 0 then co0 else co1, fun t => if t = 0 then x0 else x1,
    ⟨exTankClean, fun t ht => ?_, fun t ht => ?_, fun t ht => ?_, fun t ht => ?_⟩,
    ⟨by norm_num [exTank], rfl, fun t ht => ?_, fun t ht => ?_, fun t ht => ?_, by norm_num [exTank, exModel]⟩,
    h0, h1, rfl⟩
  · split_ifs <;> norm_num [exTankInp]
  · obtain rfl | rfl : t = 0 ∨ t = 1 := by omega
    · exact p0
    · exact p1
  · obtain rfl | rfl : t = 0 ∨ t = 1 := by omega
    · rfl
    · rfl
  · obtain rfl | rfl : t = 0 ∨ t = 1 := by omega
    · rfl
    · rfl
  · obtain rfl | rfl : t = 0 ∨ t = 1 := by omega
    · norm_num [functionalArea, storageDepth, exTankGeo, exTankState, exTank, exModel]
    · simp only [one_ne_zero, if_false, if_true, h0]
      have e : storageDepth (2:ℝ) (exTank.z_inv 0) exTank.min_depth = 2 := by
        norm_num [storageDepth, exTank, exModel]
      rw [e]
      norm_num [functionalArea, exTankGeo]
  · obtain rfl | rfl : t = 0 ∨ t = 1 := by omega
    · norm_num [hx0, exTank, exModel]
    · norm_num [hx1, exTank, exModel]
  · obtain rfl | rfl | rfl : t = 0 ∨ t = 1 ∨ t = 2 := by omega
    · norm_num [exTankState, exTank, exModel]
    · simp only [one_ne_zero, if_false, if_true, h0]; norm_num [exTank, exModel]
    · simp only [OfNat.ofNat_ne_zero, OfNat.ofNat_ne_one, if_false, h1]; norm_num [exTank, exModel]

end Pipedream.Step
