import Mathlib.Topology.Order.IntermediateValue
import Verif.InfiltrationBaseModel
import Verif.RecoveryProps

/-!
# C103: infiltration does not depend on whether numba is installed

`hydrology.py` takes `nGreenAmpt` when numba is present and `GreenAmpt` when it is not. Both integrate the
same equation, so away from ponding they agree exactly and elsewhere they approximate the same root. They
differ in what happens when an element that has not infiltrated anything ponds, and in the saturation flag.
-/

namespace Pipedream.Infiltration

open Pipedream.Link Pipedream.Root

/-! ### The exact solution -/

theorem gaF_continuousOn {p : Soil} (hp : p.Physical) {thd F1 dt : ℝ} (hthd : 0 < thd) :
    ContinuousOn (gaF p thd F1 dt) (Set.Ici 0) := by
  unfold gaF
  have hc : 0 < |p.psi| * thd := mul_pos (abs_pos.mpr hp.psi.ne') hthd
  refine ContinuousOn.sub (ContinuousOn.add continuousOn_const (ContinuousOn.mul continuousOn_const ?_))
    continuousOn_id
  refine ContinuousOn.log (continuousOn_id.add continuousOn_const) ?_
  intro x hx
  have : 0 ≤ x := hx
  have h : 0 < x + |p.psi| * thd := by linarith
  exact h.ne'

/-- The integrated Green–Ampt equation has a solution, and it is not below the infiltration it starts
from. -/
theorem gaF_root {p : Soil} (hp : p.Physical) {thd F1 dt : ℝ} (hthd : 0 < thd) (hF : 0 ≤ F1) (hdt : 0 ≤ dt) :
    ∃ r, F1 ≤ r ∧ gaF p thd F1 dt r = 0 := by
  have hK := hp.Ks
  have ha : 0 < p.psi * thd := mul_pos hp.psi hthd
  -- far out the residual is negative: the tangent at F1 + a has slope below -1/2
  set y := F1 + p.psi * thd with hy
  have hD : gaD p thd y ≤ -(1 / 2) := by
    unfold gaD
    have : p.psi * thd / (p.psi * thd + y) ≤ 1 / 2 := by
      rw [div_le_div_iff₀ (by linarith) (by norm_num)]; linarith
    linarith
  have hy0 : 0 ≤ y := by linarith
  set B := y + 2 * |gaF p thd F1 dt y| with hB
  have hBy : y ≤ B := by have := abs_nonneg (gaF p thd F1 dt y); linarith
  have hneg : gaF p thd F1 dt B ≤ 0 := by
    have ht := gaF_tangent (dt := dt) (F1 := F1) hp.psi hthd hy0 (hy0.trans hBy)
    have h1 : gaD p thd y * (B - y) ≤ -(1 / 2) * (B - y) :=
      mul_le_mul_of_nonneg_right hD (by linarith)
    have h2 := le_abs_self (gaF p thd F1 dt y)
    have h3 : B - y = 2 * |gaF p thd F1 dt y| := by rw [hB]; ring
    rw [h3] at h1 ht
    linarith
  have hpos : 0 ≤ gaF p thd F1 dt F1 := by rw [gaF_self]; positivity
  have hFB : F1 ≤ B := by linarith
  obtain ⟨r, hr, h0⟩ := intermediate_value_Icc' hFB
    ((gaF_continuousOn hp hthd).mono (fun x hx => hF.trans hx.1)) (Set.mem_Icc.mpr ⟨hneg, hpos⟩)
  exact ⟨r, hr.1, h0⟩

theorem gaF_root_unique {p : Soil} (hp : p.Physical) {thd F1 dt r z : ℝ} (hthd : 0 < thd) (hr : 0 ≤ r)
    (hz : 0 ≤ z) (h1 : gaF p thd F1 dt r = 0) (h2 : gaF p thd F1 dt z = 0) : r = z := by
  rcases lt_trichotomy r z with h | h | h
  · exact absurd (gaF_anti (F1 := F1) (dt := dt) hp.psi hthd hr h) (by rw [h1, h2]; exact lt_irrefl _)
  · exact h
  · exact absurd (gaF_anti (F1 := F1) (dt := dt) hp.psi hthd hz h) (by rw [h1, h2]; exact lt_irrefl _)

theorem gaD_eq {p : Soil} (hp : p.Physical) {thd y : ℝ} (hthd : 0 < thd) (hy : 0 ≤ y) :
    gaD p thd y = -(y / (p.psi * thd + y)) := by
  have ha : 0 < p.psi * thd := mul_pos hp.psi hthd
  have : p.psi * thd + y ≠ 0 := by positivity
  unfold gaD; field_simp; ring

/-- What a Newton step whose size is within the tolerance says about the distance to the root. -/
theorem newton_near {p : Soil} (hp : p.Physical) {thd F1 dt r y tol : ℝ} (hthd : 0 < thd) (hr : 0 < r)
    (h0 : gaF p thd F1 dt r = 0) (hy : 0 < y) (htol : 0 ≤ tol)
    (hs : |gaF p thd F1 dt y / gaD p thd y| ≤ tol) :
    r ≤ y - gaF p thd F1 dt y / gaD p thd y ∧
    y - gaF p thd F1 dt y / gaD p thd y ≤ r + tol * (1 + p.psi * thd / r) := by
  have ha : 0 < p.psi * thd := mul_pos hp.psi hthd
  have hDy : gaD p thd y < 0 := by
    rw [gaD_eq hp hthd hy.le]; exact neg_neg_of_pos (by positivity)
  have hDr : gaD p thd r = -(r / (p.psi * thd + r)) := gaD_eq hp hthd hr.le
  have hge : r ≤ y - gaF p thd F1 dt y / gaD p thd y := by
    have ht := gaF_tangent (F1 := F1) (dt := dt) hp.psi hthd hy.le hr.le
    rw [h0] at ht
    have : gaF p thd F1 dt y / gaD p thd y ≤ y - r := by
      rw [div_le_iff_of_neg hDy]; nlinarith
    linarith
  refine ⟨hge, ?_⟩
  have hextra : 0 ≤ tol * (p.psi * thd / r) := by positivity
  rcases le_or_gt y r with h | h
  · have := (abs_le.mp hs).1
    rw [mul_add, mul_one]; linarith
  · -- beyond the root
    have hn : gaF p thd F1 dt y < 0 := by
      have := gaF_anti (F1 := F1) (dt := dt) hp.psi hthd hr.le h
      rwa [h0] at this
    have hstep : 0 < gaF p thd F1 dt y / gaD p thd y := div_pos_of_neg_of_neg hn hDy
    have ht := gaF_tangent (F1 := F1) (dt := dt) hp.psi hthd hr.le hy.le
    rw [h0, zero_add, hDr] at ht
    have hs' : gaF p thd F1 dt y / gaD p thd y ≤ tol := (abs_le.mp hs).2
    rw [div_le_iff_of_neg hDy] at hs'
    have hDy1 : -1 ≤ gaD p thd y := by
      rw [gaD_eq hp hthd hy.le, neg_le_neg_iff, div_le_one (by linarith)]; linarith
    have h1 : -tol ≤ gaF p thd F1 dt y := by nlinarith
    have h2 : r / (p.psi * thd + r) * (y - r) ≤ tol := by nlinarith
    have h3 : y - r ≤ tol * (1 + p.psi * thd / r) := by
      have e : tol * (1 + p.psi * thd / r) = tol / (r / (p.psi * thd + r)) := by field_simp; ring
      rw [e, le_div_iff₀ (by positivity)]; linarith
    linarith

/-! ### The two solvers -/

/-- `scipy.optimize.newton` started between zero and the root: a returned value is not below the root, and
above it by no more than the tolerance divided by the slope there. -/
theorem scipyLoop_near {p : Soil} (hp : p.Physical) {thd F1 dt r : ℝ} (hthd : 0 < thd) (hr : 0 < r)
    (h0 : gaF p thd F1 dt r = 0) {k : ℕ} {x q : ℝ} (hx : 0 < x) (h : scipyLoop p thd F1 dt k x = .ok q) :
    r ≤ q ∧ q ≤ r + 1.48e-8 * (1 + p.psi * thd / r) := by
  have ha : 0 < p.psi * thd := mul_pos hp.psi hthd
  have htol : (0 : ℝ) ≤ 1.48e-8 := by norm_num
  induction k generalizing x with
  | zero => simp [scipyLoop] at h
  | succ k ih =>
    simp only [scipyLoop] at h
    split_ifs at h with c1 c2 c3 c4
    · injection h with h
      have e : r = x := gaF_root_unique hp hthd hr.le hx.le h0 c2
      rw [← h, ← e]
      exact ⟨le_rfl, by have : 0 ≤ 1.48e-8 * (1 + p.psi * thd / r) := by positivity
                        linarith⟩
    · injection h with h
      rw [← h]
      refine newton_near hp hthd hr h0 hx htol ?_
      rw [← abs_neg]
      convert c4 using 2
      ring
    · have hD : gaD p thd x < 0 := by
        rw [gaD_eq hp hthd hx.le]; exact neg_neg_of_pos (by positivity)
      have ht := gaF_tangent (F1 := F1) (dt := dt) hp.psi hthd hx.le hr.le
      rw [h0] at ht
      have hle : gaF p thd F1 dt x / gaD p thd x ≤ x - r := by
        rw [div_le_iff_of_neg hD]; nlinarith
      exact ih (by linarith) h

theorem scipyNewton_near {p : Soil} (hp : p.Physical) {thd x0 F1 dt r q : ℝ} (hthd : 0 < thd) (hx : 0 < x0)
    (hr : 0 < r) (h0 : gaF p thd F1 dt r = 0) (h : scipyNewton p thd x0 F1 dt = .ok q) :
    r ≤ q ∧ q ≤ r + 1.48e-8 * (1 + p.psi * thd / r) := by
  unfold scipyNewton at h
  split_ifs at h
  exact scipyLoop_near hp hthd hr h0 hx h

/-- `bounded_newton_raphson` with the root inside its bracket: a returned value is within the tolerance
below the root or above it by no more than the tolerance divided by the slope there. -/
theorem runNewton_near {p : Soil} (hp : p.Physical) {thd ia x0 F1 dt r q : ℝ} (hthd : 0 < thd) (hr : 0 < r)
    (h0 : gaF p thd F1 dt r = 0) (hb : r ≤ F1 + ia * dt) (h : runNewton p thd ia x0 F1 dt = .ok q) :
    r - 1.48e-8 ≤ q ∧ q ≤ r + 1.48e-8 * (1 + p.psi * thd / r) := by
  have ha : 0 < p.psi * thd := mul_pos hp.psi hthd
  have hB : 0 ≤ F1 + ia * dt := hr.le.trans hb
  have hlo : 0 ≤ gaF p thd F1 dt 0 := by
    have := gaF_anti (F1 := F1) (dt := dt) hp.psi hthd le_rfl hr
    rw [h0] at this; exact this.le
  have hhi : gaF p thd F1 dt (F1 + ia * dt) ≤ 0 := by
    rcases hb.eq_or_lt with h' | h'
    · rw [← h', h0]
    · have := gaF_anti (F1 := F1) (dt := dt) hp.psi hthd hr.le h'
      rw [h0] at this; exact this.le
  have hin : ∀ {z}, Hull 0 (F1 + ia * dt) z → 0 ≤ z := by
    intro z hz
    unfold Hull at hz
    rw [min_eq_left hB] at hz; exact hz.1
  have hcont : ContinuousOn (gaF p thd F1 dt) (Set.uIcc 0 (F1 + ia * dt)) :=
    (gaF_continuousOn hp hthd).mono (fun x hx => by
      rw [Set.uIcc_of_le hB] at hx; exact hx.1)
  have hextra : 0 ≤ p.psi * thd / r := by positivity
  rcases C39_near_root hcont (mul_nonpos_of_nonneg_of_nonpos hlo hhi) (runNewton_ok h).2 with
    ⟨z, hz, hz0, hd⟩ | ⟨y, hy, hne, rfl, hs⟩
  · obtain rfl := gaF_root_unique hp hthd hr.le (hin hz) h0 hz0
    have := abs_lt.mp hd
    exact ⟨by linarith, by nlinarith⟩
  · have hy0 := hin hy
    have hypos : 0 < y := by
      refine hy0.lt_of_ne ?_
      rintro rfl
      apply hne
      unfold gaD
      rw [add_zero, div_self ha.ne', sub_self]
    have hs' : |gaF p thd F1 dt y / gaD p thd y| ≤ 1.48e-8 := by
      rw [abs_div, div_le_iff₀ (abs_pos.mpr hne)]; exact hs.le
    obtain ⟨h1, h2⟩ := newton_near hp hthd hr h0 hypos (by norm_num) hs'
    exact ⟨by norm_num at h1 ⊢; linarith, h2⟩

/-! ### Without ponding -/

/-- **C103 (no ponding).** Unsaturated elements that do not pond during the step — dry weather, rain up to
the conductivity, or rain too short to saturate the surface: the two classes do exactly the same. -/
theorem C103_no_ponding_partial {p : Soil} (hp : p.Physical) {dt i : ℝ} {s : GA} (hsat : s.sat = false)
    (hno : i + s.d / dt ≤ p.Ks ∨
      (s.F < Fsat p (i + s.d / dt) s.thd ∧ s.F + (i + s.d / dt) * dt < Fsat p (i + s.d / dt) s.thd)) :
    ∃ u, step p dt i s = .ok u ∧ stepB p dt i s = .ok u := by
  simp only [step, stepB, available, infiltrate, infiltrateB, hsat, Bool.false_eq_true, if_false]
  generalize hia : i + s.d / dt = ia at hno
  by_cases hK : ia ≤ p.Ks
  · simp only [if_pos hK, gt_iff_lt, if_neg (not_lt.mpr hK), bind, Except.bind, pure, Except.pure]
    exact ⟨_, rfl, rfl⟩
  · have hK' : p.Ks < ia := not_le.mp hK
    obtain ⟨h1, h2⟩ := hno.resolve_left hK
    unfold Fsat at h1 h2
    have h0 : ia ≠ 0 := (hp.Ks.trans hK').ne'
    simp only [if_neg h0, if_neg hK, gt_iff_lt, if_pos hK', case3, case3B, ge_iff_le, if_neg (not_le.mpr h1),
        if_pos h2, bind, Except.bind, pure, Except.pure]
    exact ⟨_, rfl, rfl⟩

/-! ### What the base class does when it returns -/

theorem saturatedCaseB_ok {p : Soil} {dt ia : ℝ} {s s' : GA} (h : saturatedCaseB p dt ia s = .ok s') :
    ∃ F2, scipyNewton p s.thd s.F s.F dt = .ok F2 ∧
      s' = { s with
        T := p.Tr
        F := s.F + min (F2 - s.F) (ia * dt)
        thdu := clampTh p (s.thdu - min (F2 - s.F) (ia * dt) / p.Lu)
        f := min (F2 - s.F) (ia * dt) / dt
        sat := if F2 - s.F > ia * dt then false else s.sat } := by
  unfold saturatedCaseB at h
  cases hb : scipyNewton p s.thd s.F s.F dt with
  | error e => rw [hb] at h; simp [bind, Except.bind] at h
  | ok F2 =>
    rw [hb] at h
    simp only [bind, Except.bind, pure, Except.pure, Except.ok.injEq] at h
    refine ⟨F2, rfl, ?_⟩
    rw [← h]
    by_cases hc : F2 - s.F > ia * dt
    · rw [if_pos hc, min_eq_right (le_of_lt hc)]
    · rw [if_neg hc, min_eq_left (not_lt.mp hc)]

theorem case3B_ok {p : Soil} {dt ia : ℝ} {s s' : GA} (h : case3B p dt ia s = .ok s') :
    (Fsat p ia s.thd ≤ s.F ∧ saturatedCaseB p dt ia { s with T := p.Tr, sat := true } = .ok s') ∨
    (s.F < Fsat p ia s.thd ∧ s.F + ia * dt < Fsat p ia s.thd ∧ s' = { s with
      T := p.Tr
      f := ia
      F := s.F + ia * dt
      thdu := clampTh p (s.thdu - ia * dt / p.Lu) }) ∨
    (s.F < Fsat p ia s.thd ∧ Fsat p ia s.thd ≤ s.F + ia * dt ∧ ∃ F2,
      scipyNewton p s.thd s.F (Fsat p ia s.thd) (dt - (Fsat p ia s.thd - s.F) / ia) = .ok F2 ∧
      s' = { s with
        T := p.Tr
        F := F2
        thdu := clampTh p (s.thdu - (F2 - s.F) / p.Lu)
        f := (F2 - s.F) / dt }) := by
  simp only [case3B] at h
  by_cases c1 : s.F ≥ p.Ks * p.psi * s.thd / (ia - p.Ks)
  · rw [if_pos c1] at h; exact Or.inl ⟨c1, h⟩
  · rw [if_neg c1] at h
    have c1' := not_le.mp c1
    by_cases c2 : s.F + ia * dt < p.Ks * p.psi * s.thd / (ia - p.Ks)
    · rw [if_pos c2] at h; injection h with h; exact Or.inr (Or.inl ⟨c1', c2, h.symm⟩)
    · rw [if_neg c2] at h
      refine Or.inr (Or.inr ⟨c1', not_lt.mp c2, ?_⟩)
      unfold Fsat
      cases hb : scipyNewton p s.thd s.F (p.Ks * p.psi * s.thd / (ia - p.Ks))
          (dt - (p.Ks * p.psi * s.thd / (ia - p.Ks) - s.F) / ia) with
      | error e => rw [hb] at h; simp [bind, Except.bind] at h
      | ok F2 =>
        rw [hb] at h
        simp only [bind, Except.bind, pure, Except.pure, Except.ok.injEq] at h
        exact ⟨F2, rfl, h.symm⟩

theorem infiltrateB_ok {p : Soil} (hK : 0 < p.Ks) {dt ia : ℝ} {s s' : GA}
    (h : infiltrateB p dt ia s = .ok s') :
    (s.sat = true ∧ saturatedCaseB p dt ia s = .ok s') ∨
    (s.sat = false ∧ ia ≤ p.Ks ∧ s' = case2 p dt ia (if ia = 0 then case1 p dt s else s)) ∨
    (s.sat = false ∧ p.Ks < ia ∧ case3B p dt ia s = .ok s') := by
  simp only [infiltrateB] at h
  by_cases hs : s.sat = true
  · rw [if_pos hs] at h; exact Or.inl ⟨hs, h⟩
  · rw [if_neg hs] at h
    have hs' : s.sat = false := by simpa using hs
    by_cases hc : ia ≤ p.Ks
    · rw [if_pos hc, if_neg (not_lt.mpr hc)] at h
      injection h with h
      exact Or.inr (Or.inl ⟨hs', hc, h.symm⟩)
    · push Not at hc
      rw [if_neg (not_le.mpr hc), if_pos hc, if_neg (hK.trans hc).ne'] at h
      exact Or.inr (Or.inr ⟨hs', hc, h⟩)

theorem stepB_ok {p : Soil} {dt i : ℝ} {s s' : GA} (h : stepB p dt i s = .ok s') :
    ∃ u, infiltrateB p dt (i + s.d / dt) { s with T := s.T - dt } = .ok u ∧ s' = surface p dt i u := by
  simp only [stepB, available] at h
  cases hb : infiltrateB p dt (i + s.d / dt) { s with T := s.T - dt } with
  | error e => rw [hb] at h; simp [bind, Except.bind] at h
  | ok u =>
    rw [hb] at h
    simp only [bind, Except.bind, pure, Except.pure, Except.ok.injEq] at h
    exact ⟨u, rfl, h.symm⟩

/-! ### With ponding: the same root -/

/-- How far the two classes may be apart after a step from a state with cumulative infiltration `F`: twice
the tolerance of the solvers, over the slope of the residual at `F`. -/
noncomputable def spread (p : Soil) (thd F : ℝ) : ℝ := 2 * 1.48e-8 * (1 + p.psi * thd / F)

theorem spread_mono {p : Soil} (hp : p.Physical) {thd F r : ℝ} (hthd : 0 < thd) (hF : 0 < F) (hr : F ≤ r) :
    1.48e-8 * (1 + p.psi * thd / r) ≤ spread p thd F - 1.48e-8 := by
  have ha : 0 < p.psi * thd := mul_pos hp.psi hthd
  have h1 : p.psi * thd / r ≤ p.psi * thd / F := div_le_div_of_nonneg_left ha.le hF hr
  have h2 : 0 ≤ p.psi * thd / F := by positivity
  unfold spread
  nlinarith

/-- Saturated infiltration of the two solvers, after the limit of the supply. -/
theorem saturated_near {p : Soil} (hp : p.Physical) {thd ia F dt q1 q2 : ℝ} (hthd : 0 < thd) (hF : 0 < F)
    (hdt : 0 < dt) (hia : 0 ≤ ia) (hbig : F + ia * dt < 10 ^ 7)
    (h1 : runNewton p thd ia F F dt = .ok q1) (h2 : scipyNewton p thd F F dt = .ok q2) :
    |min (q1 - F) (ia * dt) - min (q2 - F) (ia * dt)| ≤ spread p thd F := by
  obtain ⟨r, hFr, h0⟩ := gaF_root hp hthd hF.le hdt.le
  have hr : 0 < r := hF.trans_le hFr
  have hs := spread_mono hp hthd hF hFr
  have ha : 0 < p.psi * thd := mul_pos hp.psi hthd
  have hx : 0 ≤ 1.48e-8 * (1 + p.psi * thd / r) := by positivity
  have hq2 := scipyNewton_near hp hthd hF hr h0 h2
  norm_num only at hs hq2 hx ⊢
  rcases le_or_gt r (F + ia * dt) with hb | hb
  · have hq1 := runNewton_near hp hthd hr h0 hb h1
    norm_num only at hq1
    rw [abs_le]
    constructor <;>
      rcases min_cases (q1 - F) (ia * dt) with ⟨e1, k1⟩ | ⟨e1, k1⟩ <;>
      rcases min_cases (q2 - F) (ia * dt) with ⟨e2, k2⟩ | ⟨e2, k2⟩ <;>
      rw [e1, e2] <;> linarith
  · have hcap : 0 < gaF p thd F dt (F + ia * dt) := by
      have := gaF_anti (F1 := F) (dt := dt) hp.psi hthd (by positivity) hb
      rwa [h0] at this
    obtain ⟨q, hq, k1, k2⟩ := runNewton_limited (x0 := F) hp hthd hF.le (by positivity) hcap hbig
    rw [h1] at hq
    injection hq with hq
    subst hq
    norm_num only at k1
    rw [min_eq_left (by linarith), min_eq_right (by linarith), abs_le]
    constructor <;> linarith

/-- Infiltration of the two solvers in a step during which the surface begins to pond. -/
theorem ponding_near {p : Soil} (hp : p.Physical) {thd ia F dt q1 q2 : ℝ} (hthd : 0 < thd) (hF : 0 < F)
    (hK : p.Ks < ia) (hFs : F < Fsat p ia thd) (hle : Fsat p ia thd ≤ F + ia * dt)
    (h1 : runNewton p thd ia F (Fsat p ia thd) (dt - (Fsat p ia thd - F) / ia) = .ok q1)
    (h2 : scipyNewton p thd F (Fsat p ia thd) (dt - (Fsat p ia thd - F) / ia) = .ok q2) :
    |q1 - q2| ≤ spread p thd F := by
  have hKs := hp.Ks
  have hia : 0 < ia := hKs.trans hK
  have ha : 0 < p.psi * thd := mul_pos hp.psi hthd
  set Fs := Fsat p ia thd with hFsdef
  have hFs0 : 0 < Fs := hF.trans hFs
  have hsub : 0 ≤ dt - (Fs - F) / ia := by
    rw [sub_nonneg, div_le_iff₀ hia]; linarith
  obtain ⟨r, hFr, h0⟩ := gaF_root hp hthd hFs0.le hsub
  have hr : 0 < r := hFs0.trans_le hFr
  have hb : r ≤ Fs + ia * (dt - (Fs - F) / ia) := by
    by_contra hcon
    push Not at hcon
    have hprod : 0 ≤ ia * (dt - (Fs - F) / ia) := mul_nonneg hia.le hsub
    have hpos := gaF_anti (F1 := Fs) (dt := dt - (Fs - F) / ia) hp.psi hthd (by linarith) hcon
    rw [h0] at hpos
    have ht := gaF_tangent (F1 := Fs) (dt := dt - (Fs - F) / ia) hp.psi hthd hFs0.le
      (by linarith : 0 ≤ Fs + ia * (dt - (Fs - F) / ia))
    rw [gaF_self, gaD_eq hp hthd hFs0.le] at ht
    have hratio : Fs / (p.psi * thd + Fs) = p.Ks / ia := by
      rw [div_eq_div_iff (by linarith) hia.ne', hFsdef]
      unfold Fsat
      have : ia - p.Ks ≠ 0 := by linarith
      field_simp
      ring
    rw [hratio, add_sub_cancel_left] at ht
    have e : -(p.Ks / ia) * (ia * (dt - (Fs - F) / ia)) = -(p.Ks * (dt - (Fs - F) / ia)) := by
      field_simp
    rw [e] at ht
    linarith
  have hs := spread_mono hp hthd hF (hFs.le.trans hFr)
  have hq1 := runNewton_near hp hthd hr h0 hb h1
  have hq2 := scipyNewton_near hp hthd hF hr h0 h2
  norm_num only at hs hq1 hq2 ⊢
  rw [abs_le]
  constructor <;> linarith

/-- The two states are within `δ` in cumulative infiltration and correspondingly in what follows from it. -/
structure Close (p : Soil) (dt δ : ℝ) (u v : GA) : Prop where
  F : |u.F - v.F| ≤ δ
  f : |u.f - v.f| ≤ δ / dt
  thdu : |u.thdu - v.thdu| ≤ δ / p.Lu
  thd : u.thd = v.thd
  T : u.T = v.T
  d : |u.d - v.d| ≤ δ / dt
  t : u.t = v.t

theorem clampTh_lip (p : Soil) (x y : ℝ) : |clampTh p x - clampTh p y| ≤ |x - y| := by
  unfold clampTh
  have h1 : |min (max x 0) p.thmax - min (max y 0) p.thmax| ≤ |max x 0 - max y 0| := by
    have := abs_min_sub_min_le_max (max x 0) p.thmax (max y 0) p.thmax
    rwa [sub_self, abs_zero, max_eq_left (abs_nonneg (max x 0 - max y 0))] at this
  exact h1.trans (abs_max_sub_max_le_abs _ _ _)

theorem surface_close {p : Soil} {dt i δ : ℝ} {u v : GA} (hF : |u.F - v.F| ≤ δ)
    (hf : |u.f - v.f| ≤ δ / dt) (hu : |u.thdu - v.thdu| ≤ δ / p.Lu) (hthd : u.thd = v.thd) (hT : u.T = v.T)
    (hd : u.d = v.d) (ht : u.t = v.t) : Close p dt δ (surface p dt i u) (surface p dt i v) := by
  refine ⟨hF, hf, hu, hthd, hT, ?_, ?_⟩
  · show |max (u.d + (i - u.f)) 0 - max (v.d + (i - v.f)) 0| ≤ _
    refine (abs_max_sub_max_le_abs _ _ _).trans ?_
    rw [hd, show v.d + (i - u.f) - (v.d + (i - v.f)) = -(u.f - v.f) by ring, abs_neg]
    exact hf
  · show u.t + dt = v.t + dt
    rw [ht]

/-- **C103 (same solution).** From any state with positive cumulative infiltration, whether or not the
element is saturated or becomes so: if a step completes in both classes, then their cumulative infiltrations
agree up to `spread` — the tolerances of the two root finders over the slope of the equation — and so do the
rates, deficits and ponded depths; recovery time, event deficit and clock are equal. (What is missing is the
saturation flag, see `C103_flag`, the case of nothing infiltrated yet, see `C103_fresh_raises`. That the
solvers complete: `C103_both_partial`.) -/
theorem C103_same_solution_partial {p : Soil} (hp : p.Physical) {dt i : ℝ} (hdt : 0 < dt) (hi : 0 ≤ i)
    {s u v : GA} (hs : InRange p s) (hF : 0 < s.F) (hbig : s.F + (i * dt + s.d) < 10 ^ 7)
    (hu : step p dt i s = .ok u) (hv : stepB p dt i s = .ok v) : Close p dt (spread p s.thd s.F) u v := by
  have hLu := hp.Lu
  have hδ : 0 ≤ spread p s.thd s.F := by
    have := hp.psi
    have := hs.thd_lo
    unfold spread; positivity
  have hia : 0 ≤ i + s.d / dt := add_nonneg hi (div_nonneg hs.d_lo hdt.le)
  have hprod : (i + s.d / dt) * dt = i * dt + s.d := by field_simp
  obtain ⟨u, hu', rfl⟩ := step_ok hu
  obtain ⟨v, hv', rfl⟩ := stepB_ok hv
  clear hu hv
  rename' hu' => hu, hv' => hv
  rw [← hprod] at hbig
  generalize i + s.d / dt = ia at hu hv hia hbig
  -- the saturated case, entered in either way
  have hsat : ∀ {b T : _} {u v : GA}, saturatedCase p dt ia { s with T := T, sat := b } = .ok u →
      saturatedCaseB p dt ia { s with T := T, sat := b } = .ok v →
      Close p dt (spread p s.thd s.F) (surface p dt i u) (surface p dt i v) := by
    intro b T u v hu hv
    obtain ⟨q1, h1, rfl⟩ := saturatedCase_ok hu
    obtain ⟨q2, h2, rfl⟩ := saturatedCaseB_ok hv
    have key := saturated_near hp hs.thd_lo hF hdt hia hbig h1 h2
    refine surface_close ?_ ?_ ?_ rfl rfl rfl rfl
    · show |s.F + min (q1 - s.F) (ia * dt) - (s.F + min (q2 - s.F) (ia * dt))| ≤ _
      rw [add_sub_add_left_eq_sub]; exact key
    · show |min (q1 - s.F) (ia * dt) / dt - min (q2 - s.F) (ia * dt) / dt| ≤ _
      rw [← sub_div, abs_div, abs_of_pos hdt, div_le_div_iff_of_pos_right hdt]; exact key
    · refine (clampTh_lip p _ _).trans ?_
      show |s.thdu - min (q1 - s.F) (ia * dt) / p.Lu - (s.thdu - min (q2 - s.F) (ia * dt) / p.Lu)| ≤ _
      rw [sub_sub_sub_cancel_left, abs_sub_comm, ← sub_div, abs_div, abs_of_pos hLu,
        div_le_div_iff_of_pos_right hLu]
      exact key
  have hself : ∀ w : GA, Close p dt (spread p s.thd s.F) (surface p dt i w) (surface p dt i w) := by
    intro w
    exact surface_close (by simpa using hδ) (by simp; positivity) (by simp; positivity) rfl rfl rfl rfl
  rcases infiltrate_ok hp.Ks hu with ⟨c, hu⟩ | ⟨c, c1, rfl⟩ | ⟨c, c1, hu⟩
  · rcases infiltrateB_ok hp.Ks hv with ⟨-, hv⟩ | ⟨c', -, -⟩ | ⟨c', -, -⟩
    · exact hsat hu hv
    · rw [c] at c'; cases c'
    · rw [c] at c'; cases c'
  · rcases infiltrateB_ok hp.Ks hv with ⟨c', -⟩ | ⟨-, -, rfl⟩ | ⟨-, c', -⟩
    · rw [c] at c'; cases c'
    · exact hself _
    · exact absurd c' (not_lt.mpr c1)
  · rcases infiltrateB_ok hp.Ks hv with ⟨c', -⟩ | ⟨-, c', -⟩ | ⟨-, -, hv⟩
    · rw [c] at c'; cases c'
    · exact absurd c1 (not_lt.mpr c')
    · rcases case3_ok hu with ⟨k, hu⟩ | ⟨k, k1, rfl⟩ | ⟨k, k1, q1, h1, rfl⟩
      · rcases case3B_ok hv with ⟨-, hv⟩ | ⟨k', -, -⟩ | ⟨k', -⟩
        · exact hsat hu hv
        · exact absurd k (not_le.mpr k')
        · exact absurd k (not_le.mpr k')
      · rcases case3B_ok hv with ⟨k', -⟩ | ⟨-, -, rfl⟩ | ⟨-, k', -⟩
        · exact absurd k (not_lt.mpr k')
        · exact hself _
        · exact absurd k1 (not_lt.mpr k')
      · rcases case3B_ok hv with ⟨k', -⟩ | ⟨-, k', -⟩ | ⟨-, -, q2, h2, rfl⟩
        · exact absurd k (not_lt.mpr k')
        · exact absurd k' (not_lt.mpr k1)
        · have key := ponding_near hp hs.thd_lo hF c1 k k1 h1 h2
          refine surface_close key ?_ ?_ rfl rfl rfl rfl
          · show |(q1 - s.F) / dt - (q2 - s.F) / dt| ≤ _
            rw [← sub_div, sub_sub_sub_cancel_right, abs_div, abs_of_pos hdt, div_le_div_iff_of_pos_right hdt]
            exact key
          · refine (clampTh_lip p _ _).trans ?_
            show |s.thdu - (q1 - s.F) / p.Lu - (s.thdu - (q2 - s.F) / p.Lu)| ≤ _
            rw [sub_sub_sub_cancel_left, abs_sub_comm, ← sub_div, sub_sub_sub_cancel_right, abs_div,
              abs_of_pos hLu, div_le_div_iff_of_pos_right hLu]
            exact key

/-! ### Where they differ -/

/-- **C103 (violated): the saturation flag.** In a dry step of a saturated element with positive cumulative
infiltration and no ponded water the class with numba leaves it saturated and the class without numba makes
it unsaturated, so that recovery begins in the one and not in the other (`C102_saturated_for_ever`). -/
theorem C103_flag {p : Soil} (hp : p.Physical) {dt : ℝ} (hdt : 0 < dt) {s u v : GA} (hs : InRange p s)
    (hF : 0 < s.F) (hd : s.d = 0) (hsat : s.sat = true) (hu : step p dt 0 s = .ok u)
    (hv : stepB p dt 0 s = .ok v) : u.sat = true ∧ v.sat = false ∧ v.F = s.F := by
  refine ⟨(saturated_step hdt le_rfl hs.d_lo hsat hF.le hu).1, ?_⟩
  obtain ⟨v, hv', rfl⟩ := stepB_ok hv
  clear hv
  rename' hv' => hv
  rw [hd, zero_div, add_zero] at hv
  rcases infiltrateB_ok hp.Ks hv with ⟨-, hv⟩ | ⟨c', -, -⟩ | ⟨c', -, -⟩
  · obtain ⟨q, h, rfl⟩ := saturatedCaseB_ok hv
    have h' : scipyNewton p s.thd s.F s.F dt = .ok q := h
    obtain ⟨r, hFr, h0⟩ := gaF_root hp hs.thd_lo hF.le hdt.le
    have hne : r ≠ s.F := by
      rintro rfl
      rw [gaF_self] at h0
      have := mul_pos hp.Ks hdt
      linarith
    have hlt : s.F < r := lt_of_le_of_ne hFr hne.symm
    have hq := (scipyNewton_near hp hs.thd_lo hF (hF.trans hlt) h0 h').1
    constructor
    · show (if q - s.F > 0 * dt then false else _) = false
      rw [if_pos (by rw [zero_mul]; linarith)]
    · show s.F + min (q - s.F) (0 * dt) = s.F
      rw [zero_mul, min_eq_right (by linarith), add_zero]
  · have : s.sat = false := c'
    rw [hsat] at this; cases this
  · have : s.sat = false := c'
    rw [hsat] at this; cases this

/-- **C103 (violated): the first ponding.** An element that has infiltrated nothing — a fresh one, or one
whose event has just ended — in any step whose rain exceeds the conductivity and saturates the surface
within the step: the class without numba raises `RuntimeError`, because the derivative of the equation
vanishes where the search starts. -/
theorem C103_fresh_raises {p : Soil} (hp : p.Physical) {dt i : ℝ} {s : GA} (hs : InRange p s)
    (hsat : s.sat = false) (hF : s.F = 0) (hK : p.Ks < i + s.d / dt)
    (hpond : Fsat p (i + s.d / dt) s.thd ≤ (i + s.d / dt) * dt) : stepB p dt i s = .error .runtime := by
  simp only [stepB, available, infiltrateB, hsat, Bool.false_eq_true, if_false]
  generalize i + s.d / dt = ia at hK hpond
  have hia : 0 < ia := hp.Ks.trans hK
  have hFs := Fsat_pos hp hK hs.thd_lo
  have ha : 0 < p.psi * s.thd := mul_pos hp.psi hs.thd_lo
  have eF : p.Ks * p.psi * s.thd / (ia - p.Ks) = Fsat p ia s.thd := rfl
  have hscipy : scipyNewton p s.thd 0 (Fsat p ia s.thd) (dt - (Fsat p ia s.thd - 0) / ia) = .error .runtime := by
    unfold scipyNewton
    rw [abs_of_pos hp.psi, if_pos (by linarith)]
    rw [show (50 : ℕ) = 49 + 1 from rfl, scipyLoop, abs_of_pos hp.psi, if_neg (by linarith), if_neg, if_pos]
    · unfold gaD; rw [add_zero, div_self ha.ne', sub_self]
    · have hsub : 0 ≤ dt - (Fsat p ia s.thd - 0) / ia := by
        rw [sub_nonneg, div_le_iff₀ hia]; linarith
      have h1 := gaF_anti (F1 := Fsat p ia s.thd) (dt := dt - (Fsat p ia s.thd - 0) / ia) hp.psi hs.thd_lo
        le_rfl hFs
      rw [gaF_self] at h1
      have h2 : 0 ≤ p.Ks * (dt - (Fsat p ia s.thd - 0) / ia) := mul_nonneg hp.Ks.le hsub
      linarith
  simp only [if_neg hia.ne', if_neg (not_le.mpr hK), gt_iff_lt, if_pos hK, case3B, eF, hF, ge_iff_le,
    if_neg (not_le.mpr hFs), zero_add, if_neg (not_lt.mpr hpond), hscipy, bind, Except.bind]

/-- **C103 (violated on every soil).** For every soil there is a shower under which the first step of a
fresh element completes with numba and raises without. -/
theorem C103_every_soil {p : Soil} (hp : p.Physical) :
    ∃ dt i, 0 < dt ∧ 0 < i ∧ (∃ u, step p dt i (initial p) = .ok u) ∧
      stepB p dt i (initial p) = .error .runtime := by
  have hK := hp.Ks
  have ha : 0 < p.psi * p.thmax := mul_pos hp.psi hp.thmax
  set i := p.Ks + p.Ks * (p.psi * p.thmax) / 1e-8 with hi
  have hiK : p.Ks < i := by
    have : 0 < p.Ks * (p.psi * p.thmax) / 1e-8 := by positivity
    linarith
  have hi0 : 0 < i := hK.trans hiK
  have hFs : Fsat p i p.thmax = 1e-8 := by
    unfold Fsat
    rw [hi, show p.Ks + p.Ks * (p.psi * p.thmax) / 1e-8 - p.Ks = p.Ks * p.psi * p.thmax / 1e-8 by ring]
    have := hp.psi.ne'
    have := hp.thmax.ne'
    field_simp
  set dt := 2e-8 / i with hdt
  have e : i * dt = 2e-8 := by rw [hdt]; field_simp
  have hsub : Fsat p i p.thmax + i * (dt - (Fsat p i p.thmax - 0) / i) = 2e-8 := by
    rw [sub_bracket hi0.ne', e, zero_add]
  have h0 : i + (initial p).d / dt = i := by simp [initial]
  refine ⟨dt, i, by positivity, hi0, ?_, ?_⟩
  · have hN : ∃ r, runNewton p p.thmax i 0 (Fsat p i p.thmax) (dt - (Fsat p i p.thmax - 0) / i) = .ok r := by
      unfold runNewton
      rw [if_pos (by rw [abs_of_pos hp.psi, hFs]; positivity), hsub]
      obtain ⟨r, hr⟩ := bounded_narrow
        (f := gaF p p.thmax (Fsat p i p.thmax) (dt - (Fsat p i p.thmax - 0) / i))
        (df := gaD p p.thmax) (x0 := 0) (a := 0) (b := 2e-8) (atol := 1.48e-8) (by norm_num) 49
      exact ⟨r, by rw [hr]⟩
    obtain ⟨r, hr⟩ := hN
    have eF : p.Ks * p.psi * p.thmax / (i - p.Ks) = Fsat p i p.thmax := rfl
    have hc1 : ¬ Fsat p i p.thmax ≤ 0 := by rw [hFs]; norm_num
    have hc2 : ¬ i * dt < Fsat p i p.thmax := by rw [hFs, e]; norm_num
    simp only [step, available, h0, infiltrate]
    simp only [initial, Bool.false_eq_true, if_false, if_neg hi0.ne', if_neg (not_le.mpr hiK), gt_iff_lt,
      if_pos hiK, case3, eF, ge_iff_le, if_neg hc1, zero_add, if_neg hc2, hr, bind, Except.bind, pure,
      Except.pure]
    exact ⟨_, rfl⟩
  · refine C103_fresh_raises hp (inRange_initial hp) rfl rfl ?_ ?_
    · rw [h0]; exact hiK
    · rw [h0, e]; show Fsat p i p.thmax ≤ _; rw [hFs]; norm_num

/-- Non-vacuity of `C103_no_ponding_partial`: a shower of twice the conductivity on a fresh element. -/
example : ∃ (p : Soil) (u : GA), p.Physical ∧ step p (1 / 4) 2 (initial p) = .ok u ∧
    stepB p (1 / 4) 2 (initial p) = .ok u := by
  let p : Soil := ⟨1, 1, 1, 1⟩
  have hp : p.Physical := ⟨one_pos, one_pos, one_pos, zero_le_one⟩
  obtain ⟨u, h1, h2⟩ := C103_no_ponding_partial hp (dt := 1 / 4) (i := 2) (s := initial p) rfl
    (Or.inr (by simp only [Fsat, initial, p]; norm_num))
  exact ⟨p, u, hp, h1, h2⟩

/-- Non-vacuity of `C103_same_solution_partial` and `C103_flag`: a saturated element and a dry step. -/
example : ∃ (p : Soil) (s u v : GA), p.Physical ∧ InRange p s ∧ 0 < s.F ∧ s.d = 0 ∧ s.sat = true ∧
    step p 1e-9 0 s = .ok u ∧ stepB p 1e-9 0 s = .ok v := by
  let p : Soil := ⟨1, 1, 1, 1⟩
  have hp : p.Physical := ⟨one_pos, one_pos, one_pos, zero_le_one⟩
  let s : GA := ⟨1, 0, 1 / 2, 1, 3, 0, 0, 0, true⟩
  have hs : InRange p s := ⟨by norm_num, by norm_num, one_pos, le_rfl, le_rfl, le_rfl⟩
  obtain ⟨r, hr, -, -⟩ := runNewton_limited (x0 := 1) (ia := 0) (F1 := 1) (dt := 1e-9) (thd := 1) hp one_pos
    (by norm_num) (by norm_num) (by
      rw [zero_mul, add_zero, gaF_self]; show (0 : ℝ) < 1 * 1e-9; norm_num) (by norm_num)
  have hq : ∃ q, scipyNewton p 1 1 1 1e-9 = .ok q := by
    unfold scipyNewton
    rw [show (50 : ℕ) = 49 + 1 from rfl, scipyLoop, gaF_self]
    have h1 : |p.psi| = 1 := abs_one
    have h2 : gaD p 1 1 = -(1 / 2) := by simp only [gaD, p]; norm_num
    have h3 : p.Ks * 1e-9 = 1e-9 := one_mul _
    rw [h1, h2, h3, if_pos (by norm_num), if_neg (by norm_num), if_neg (by norm_num), if_neg (by norm_num)]
    simp only
    rw [if_pos (by rw [abs_le]; constructor <;> norm_num)]
    exact ⟨_, rfl⟩
  obtain ⟨q, hq⟩ := hq
  have hu : ∃ u, step p 1e-9 0 s = .ok u := by
    simp only [step, available, infiltrate, s, if_true, saturatedCase, zero_div, add_zero, hr, bind, Except.bind,
      pure, Except.pure]
    exact ⟨_, rfl⟩
  have hv : ∃ v, stepB p 1e-9 0 s = .ok v := by
    simp only [stepB, available, infiltrateB, s, if_true, saturatedCaseB, zero_div, add_zero, hq, bind,
      Except.bind, pure, Except.pure]
    exact ⟨_, rfl⟩
  obtain ⟨u, hu⟩ := hu
  obtain ⟨v, hv⟩ := hv
  exact ⟨p, s, u, v, hp, hs, one_pos, rfl, rfl, hu, hv⟩

end Pipedream.Infiltration
