import Verif.InfiltrationLawProps

/-!
# C146: more rain means no less infiltration, runoff and ponding

Two steps from the same state under different rain. The law of C145 is monotone in the supply, and grows no
faster than the supply does; the saturated case is so as well, although it does not follow the law.
-/

namespace Pipedream.Infiltration

open Pipedream.Link Pipedream.Root Set

/-! ### The law -/

theorem lawRate_supply {Ks S a b y : ℝ} (hab : a ≤ b) (hy : 0 < y) :
    lawRate Ks S a y ≤ lawRate Ks S b y ∧ lawRate Ks S b y ≤ lawRate Ks S a y + (b - a) := by
  rw [lawRate_eq_min hy, lawRate_eq_min hy]
  refine ⟨min_le_min hab le_rfl, ?_⟩
  rcases min_cases a (Ks * (1 + S / y)) with ⟨e, -⟩ | ⟨e, -⟩ <;> rw [e]
  · linarith [min_le_left b (Ks * (1 + S / y))]
  · linarith [min_le_right b (Ks * (1 + S / y))]

theorem lawRate_supply' {Ks S a b y : ℝ} (hK : 0 < Ks) (hS : 0 < S) (hab : a ≤ b) (hy : 0 ≤ y) :
    lawRate Ks S a y ≤ lawRate Ks S b y ∧ lawRate Ks S b y ≤ lawRate Ks S a y + (b - a) := by
  rcases hy.eq_or_lt with rfl | hy
  · have e : ∀ c, lawRate Ks S c 0 = c := fun c => by
      unfold lawRate; rw [if_pos]; rw [mul_zero, zero_add]; positivity
    rw [e, e]
    exact ⟨hab, by linarith⟩
  · exact lawRate_supply hab hy

/-- More supply: more infiltration, but not by more than the supply. -/
theorem Obeys.supply_mono {p : Soil} (hp : p.Physical) {thd a b F dt : ℝ} {y z : ℝ → ℝ} (hthd : 0 < thd)
    (ha : 0 ≤ a) (hab : a ≤ b) (hdt : 0 ≤ dt) (hF : 0 ≤ F) (hy : Obeys p.Ks (p.psi * thd) a F dt y)
    (hz : Obeys p.Ks (p.psi * thd) b F dt z) : y dt ≤ z dt ∧ z dt - y dt ≤ (b - a) * dt := by
  have hS := mul_pos hp.psi hthd
  have hK := hp.Ks
  have hy0 : ∀ t ∈ Icc 0 dt, 0 ≤ y t := fun t ht => hF.trans (hy.ge hK hS ha ht)
  have hz0 : ∀ t ∈ Icc 0 dt, 0 ≤ z t := fun t ht => hF.trans (hz.ge hK hS (ha.trans hab) ht)
  have hord : ∀ T ∈ Icc 0 dt, y T ≤ z T := by
    intro T hT
    have hy' := hy.sub hT.2
    have hz' := hz.sub hT.2
    have hsub : ∀ t ∈ Icc 0 T, t ∈ Icc 0 dt := fun t ht => ⟨ht.1, ht.2.trans hT.2⟩
    rcases le_or_gt a p.Ks with hc | hc
    · -- without excess everything on offer infiltrates, and the other rate is at least as large
      rw [hy'.low hK hS ha hF hT.1 hc]
      have := slope_le (g := fun t => -z t) (g' := fun t => -lawRate p.Ks (p.psi * thd) b (z t)) (c := -a) hT.1
        hz'.cont.neg (fun t ht => (hz'.law t ht).neg) (fun t ht => by
          have h0 := hz0 t (hsub t ⟨ht.1.le, ht.2.le⟩)
          have h1 := (lawRate_supply' hK hS hab h0).1
          have h2 : lawRate p.Ks (p.psi * thd) a (z t) = a := by
            rw [lawRate, if_pos (by nlinarith)]
          rw [h2] at h1
          linarith)
      simp only [hz.start] at this
      linarith
    · have hmono := travel_strictMono hK hS hc
      rw [← hmono.le_iff_le (hy0 T hT) (hz0 T hT), hy'.travel hK hS hc hF hT.1]
      have := slope_le (g := fun t => -Infiltration.travel p.Ks (p.psi * thd) a (z t))
        (g' := fun t => -(1 / lawRate p.Ks (p.psi * thd) a (z t) * lawRate p.Ks (p.psi * thd) b (z t)))
        (c := -1) hT.1
        (fun t ht => ((travel_deriv hK hS hc (hz0 t (hsub t ht))).continuousAt.comp_continuousWithinAt
          (hz'.cont t ht)).neg)
        (fun t ht => ((travel_deriv hK hS hc (hz0 t (hsub t ⟨ht.1.le, ht.2.le⟩))).comp t (hz'.law t ht)).neg)
        (fun t ht => by
          have h0 := hz0 t (hsub t ⟨ht.1.le, ht.2.le⟩)
          have h1 := (lawRate_supply' hK hS hab h0).1
          have h2 := lawRate_pos hK hS (hK.trans hc) h0
          rw [neg_le_neg_iff, one_div, ← div_eq_inv_mul, le_div_iff₀ h2]
          linarith)
      simp only [hz.start] at this
      linarith
  refine ⟨hord dt ⟨hdt, le_rfl⟩, ?_⟩
  have := slope_le (g := fun t => z t - y t)
    (g' := fun t => lawRate p.Ks (p.psi * thd) b (z t) - lawRate p.Ks (p.psi * thd) a (y t)) (c := b - a) hdt
    (hz.cont.sub hy.cont) (fun t ht => (hz.law t ht).sub (hy.law t ht)) (fun t ht => by
      have hm : t ∈ Icc 0 dt := ⟨ht.1.le, ht.2.le⟩
      have h1 := lawRate_anti (ia := b) hK hS (hy0 t hm) (hord t hm)
      have h2 := (lawRate_supply' (S := p.psi * thd) hK hS hab (hy0 t hm)).2
      linarith)
  simp only [hy.start, hz.start] at this
  linarith

/-! ### Steps -/

/-- The two values the step may aim at, and their monotonicity. -/
theorem targets {p : Soil} (hp : p.Physical) {dt i : ℝ} (hdt : 0 < dt) {s s' : GA} (hs : InRange p s)
    (hF : 0 ≤ s.F) (hw : 0 < i + s.d / dt) (hbig : s.F + (i * dt + s.d) < 10 ^ 7) (h : step p dt i s = .ok s') :
    (s.sat = false → ∀ y, Obeys p.Ks (p.psi * s.thd) (i + s.d / dt) s.F dt y →
      |s'.F - y dt| ≤ lawTol p (i + s.d / dt)) ∧
    (s.sat = true → ∀ r, s.F ≤ r → gaF p s.thd s.F dt r = 0 →
      |s'.F - min r (s.F + (i + s.d / dt) * dt)| ≤ lawTol p (i + s.d / dt)) := by
  refine ⟨fun hsat y hy => (C145_step_partial hp hdt hs hF hw hbig (Or.inl hsat) h hy).1, ?_⟩
  intro hsat r hr h0
  have hprod : (i + s.d / dt) * dt = i * dt + s.d := by field_simp
  rw [← hprod] at hbig
  obtain ⟨u, hb, rfl⟩ := step_ok h
  show |u.F - _| ≤ _
  rcases infiltrate_ok hp.Ks hb with ⟨-, hb⟩ | ⟨c, -⟩ | ⟨c, -⟩
  · obtain ⟨q, hq, rfl⟩ := saturatedCase_ok hb
    exact saturated_target hp hs.thd_lo hw.le hdt hF hr h0 hbig hq
  · rw [show s.sat = false from c] at hsat; cases hsat
  · rw [show s.sat = false from c] at hsat; cases hsat

/-- A step with nothing on offer: nothing infiltrates, up to the tolerance. -/
theorem dry_step {p : Soil} (hp : p.Physical) {dt i : ℝ} (hdt : 0 < dt) {s s' : GA}
    (hF : 0 ≤ s.F) (hw : i + s.d / dt = 0) (h : step p dt i s = .ok s') :
    s'.F ≤ s.F ∧ s'.f ≤ 0 ∧ (s.sat = false → s'.f = 0) := by
  obtain ⟨u, hb, rfl⟩ := step_ok h
  rw [hw] at hb
  show u.F ≤ s.F ∧ u.f ≤ 0 ∧ (_ → u.f = 0)
  rcases infiltrate_ok hp.Ks hb with ⟨c, hb⟩ | ⟨-, -, rfl⟩ | ⟨-, c, -⟩
  · obtain ⟨q, -, rfl⟩ := saturatedCase_ok hb
    have hm : min (q - s.F) (0 * dt) ≤ 0 := by rw [zero_mul]; exact min_le_right _ _
    refine ⟨?_, ?_, ?_⟩
    · show s.F + min (q - s.F) (0 * dt) ≤ s.F
      linarith
    · show min (q - s.F) (0 * dt) / dt ≤ 0
      exact div_nonpos_of_nonpos_of_nonneg hm hdt.le
    · intro hs
      rw [show s.sat = true from c] at hs; cases hs
  · rw [if_pos rfl]
    refine ⟨?_, le_rfl, fun _ => rfl⟩
    simp only [case2, case1, zero_mul, add_zero]
    split_ifs
    · exact hF
    · have hkr := hp.kr
      have hth := hp.thmax
      have hLu := hp.Lu
      have : 0 ≤ p.kr * p.thmax * dt * p.Lu := by positivity
      linarith
  · exact absurd c (not_lt.mpr hp.Ks.le)

/-- **C146 (infiltration).** Every soil, every state with non-negative cumulative infiltration, flagged as
saturated or not: of two steps, the one with more rain infiltrates no less, but not by more than the
difference in rain; up to the tolerances of the root finders. -/
theorem C146_infiltration {p : Soil} (hp : p.Physical) {dt i j : ℝ} (hdt : 0 < dt) (hi : 0 ≤ i) (hij : i ≤ j)
    {s u v : GA} (hs : InRange p s) (hF : 0 ≤ s.F) (hbig : s.F + (j * dt + s.d) < 10 ^ 7)
    (hu : step p dt i s = .ok u) (hv : step p dt j s = .ok v) :
    u.F ≤ v.F + (lawTol p (i + s.d / dt) + lawTol p (j + s.d / dt)) ∧
    dt * v.f ≤ dt * u.f + (j - i) * dt + (lawTol p (i + s.d / dt) + lawTol p (j + s.d / dt)) := by
  have hthd := hs.thd_lo
  have hS := mul_pos hp.psi hthd
  have hd := div_nonneg hs.d_lo hdt.le
  have ht1 := lawTol_pos p (i + s.d / dt)
  have ht2 := lawTol_pos p (j + s.d / dt)
  have hdj : (j + s.d / dt) * dt = (i + s.d / dt) * dt + (j - i) * dt := by ring
  have hjid : 0 ≤ (j - i) * dt := mul_nonneg (by linarith) hdt.le
  rcases (add_nonneg hi hd : 0 ≤ i + s.d / dt).eq_or_lt with h0 | hw
  · -- dry in the first step
    obtain ⟨k1, k2, k3⟩ := dry_step hp hdt hF h0.symm hu
    have hlow := C36_lower hp hdt (hi.trans hij) hs hv
    have hlow' : -1.48e-8 ≤ dt * v.f := by
      have := mul_le_mul_of_nonneg_left hlow hdt.le
      have e : dt * (-(1.48e-8 / dt)) = -1.48e-8 := by field_simp
      linarith
    have hsup := C36_supply hp hdt hs hv
    have hsup' : dt * v.f ≤ (j - i) * dt := by
      have := mul_le_mul_of_nonneg_left hsup hdt.le
      rw [mul_comm dt (j + _), hdj, ← h0, zero_mul, zero_add] at this
      exact this
    have hge := lawTol_ge p (j + s.d / dt)
    have hge' := lawTol_ge p (i + s.d / dt)
    have hul := C36_lower hp hdt hi hs hu
    have hul' : -1.48e-8 ≤ dt * u.f := by
      have := mul_le_mul_of_nonneg_left hul hdt.le
      have e : dt * (-(1.48e-8 / dt)) = -1.48e-8 := by field_simp
      linarith
    refine ⟨?_, by linarith⟩
    by_cases hvw : s.sat = true ∨ j + s.d / dt ≠ 0
    · have hc := C36_cumulative hp hdt hvw hv
      linarith
    · push Not at hvw
      have : i = j := by linarith [hvw.2]
      subst this
      rw [hu] at hv
      injection hv with hv
      rw [hv]; linarith
  · have hw' : 0 < j + s.d / dt := by linarith
    have hc1 := C36_cumulative hp hdt (Or.inr hw.ne') hu
    have hc2 := C36_cumulative hp hdt (Or.inr hw'.ne') hv
    have hij' : i * dt ≤ j * dt := mul_le_mul_of_nonneg_right hij hdt.le
    obtain ⟨a1, a2⟩ := targets hp hdt hs hF hw (by linarith) hu
    obtain ⟨b1, b2⟩ := targets hp hdt hs hF hw' hbig hv
    by_cases hsat : s.sat = true
    · obtain ⟨r, hr, hr0⟩ := gaF_root (dt := dt) hp hthd hF hdt.le
      have ha := abs_le.mp (a2 hsat r hr hr0)
      have hb := abs_le.mp (b2 hsat r hr hr0)
      rw [hdj] at hb
      have m1 : min r (s.F + (i + s.d / dt) * dt) ≤ min r (s.F + ((i + s.d / dt) * dt + (j - i) * dt)) :=
        min_le_min le_rfl (by linarith)
      have m2 : min r (s.F + ((i + s.d / dt) * dt + (j - i) * dt))
          ≤ min r (s.F + (i + s.d / dt) * dt) + (j - i) * dt := by
        rcases min_cases r (s.F + (i + s.d / dt) * dt) with ⟨e, -⟩ | ⟨e, -⟩ <;> rw [e]
        · linarith [min_le_left r (s.F + ((i + s.d / dt) * dt + (j - i) * dt))]
        · linarith [min_le_right r (s.F + ((i + s.d / dt) * dt + (j - i) * dt))]
      constructor <;> linarith [ha.1, ha.2, hb.1, hb.2]
    · have hsat' : s.sat = false := by simpa using hsat
      obtain ⟨y, hy⟩ := C145_exists (p := p) (thd := s.thd) (ia := i + s.d / dt) (F := s.F) hp hthd hw.le hF dt
      obtain ⟨z, hz⟩ := C145_exists (p := p) (thd := s.thd) (ia := j + s.d / dt) (F := s.F) hp hthd hw'.le hF dt
      obtain ⟨m1, m2⟩ := hy.supply_mono hp hthd hw.le (by linarith) hdt.le hF hz
      have e : j + s.d / dt - (i + s.d / dt) = j - i := by ring
      rw [e] at m2
      have ha := abs_le.mp (a1 hsat' y hy)
      have hb := abs_le.mp (b1 hsat' z hz)
      constructor <;> linarith [ha.1, ha.2, hb.1, hb.2]

/-- **C146 (runoff and ponding).** … and leaves no less runoff and no less water on the surface. -/
theorem C146_surface {p : Soil} (hp : p.Physical) {dt i j : ℝ} (hdt : 0 < dt) (hi : 0 ≤ i) (hij : i ≤ j)
    {s u v : GA} (hs : InRange p s) (hF : 0 ≤ s.F) (hbig : s.F + (j * dt + s.d) < 10 ^ 7)
    (hu : step p dt i s = .ok u) (hv : step p dt j s = .ok v) :
    u.Q ≤ v.Q + (lawTol p (i + s.d / dt) + lawTol p (j + s.d / dt)) / dt * p.A_s ∧
    u.d ≤ v.d + (lawTol p (i + s.d / dt) + lawTol p (j + s.d / dt)) / dt := by
  have h := (C146_infiltration hp hdt hi hij hs hF hbig hu hv).2
  have hte : 0 ≤ (lawTol p (i + s.d / dt) + lawTol p (j + s.d / dt)) / dt :=
    div_nonneg (add_pos (lawTol_pos p _) (lawTol_pos p _)).le hdt.le
  have hdf : i - u.f ≤ j - v.f + (lawTol p (i + s.d / dt) + lawTol p (j + s.d / dt)) / dt := by
    have h' : dt * (v.f - u.f - (j - i)) ≤ lawTol p (i + s.d / dt) + lawTol p (j + s.d / dt) := by linarith
    have := (le_div_iff₀' hdt).mpr h'
    linarith
  obtain ⟨d1, q1⟩ := surface_formula hp hu
  obtain ⟨d2, q2⟩ := surface_formula hp hv
  generalize (lawTol p (i + s.d / dt) + lawTol p (j + s.d / dt)) / dt = T at *
  rw [d1, d2, q1, q2]
  constructor
  · rw [← add_mul]
    refine mul_le_mul_of_nonneg_right (max_le ?_ ?_) hp.A_s
    · linarith [le_max_left (j - v.f) 0]
    · linarith [le_max_right (j - v.f) 0]
  · refine max_le ?_ ?_
    · linarith [le_max_left (s.d + (j - v.f)) 0]
    · linarith [le_max_right (s.d + (j - v.f)) 0]

/-- A fresh element of the example soil, for an hour: rain of 36 mm/h against 72 mm/h. -/
example : ∃ u v, step lawSoil 3600 1e-5 (initial lawSoil) = .ok u ∧ step lawSoil 3600 2e-5 (initial lawSoil) = .ok v ∧
    u.F ≤ v.F + (lawTol lawSoil 1e-5 + lawTol lawSoil 2e-5) := by
  have hp := lawSoil_physical
  obtain ⟨u, hu⟩ := C139_step (dt := 3600) (i := 1e-5) hp (by norm_num) (by norm_num) (sound_initial hp)
    (by norm_num [initial])
  obtain ⟨v, hv⟩ := C139_step (dt := 3600) (i := 2e-5) hp (by norm_num) (by norm_num) (sound_initial hp)
    (by norm_num [initial])
  refine ⟨u, v, hu, hv, ?_⟩
  have := (C146_infiltration hp (by norm_num) (by norm_num) (by norm_num) (inRange_initial hp) le_rfl
    (by norm_num [initial]) hu hv).1
  have e : (initial lawSoil).d / 3600 = 0 := by norm_num [initial]
  rwa [e, add_zero, add_zero] at this

end Pipedream.Infiltration
