import Verif.InfiltrationProps

/-!
# C102: soils recover after rain

Unsaturated soils do. A soil that has once been saturated stays saturated for ever, whatever the weather:
the bounded solver cannot return more than the supply, which is what the test for leaving saturation asks.
-/

namespace Pipedream.Infiltration

open Pipedream.Link Pipedream.Root

/-! ### The solver when the supply is below the infiltration capacity -/

/-- A concave residual that is positive at both ends of the bracket: every iteration bisects and the
result is within the tolerance of the end with the smaller residual. -/
theorem bisects {f df : ℝ → ℝ} {b atol : ℝ} (hatol : 0 < atol)
    (ht : ∀ y r, 0 ≤ y → y ≤ b → 0 ≤ r → r ≤ b → f r ≤ f y + df y * (r - y))
    (hpos : ∀ y, 0 ≤ y → y ≤ b → 0 < f y) (k : ℕ) {s : BState} (hfx : s.fx = f s.x) (hdfx : s.dfx = df s.x)
    (hlb : s.lb = b) (hu0 : 0 ≤ s.ub) (hub : s.ub ≤ b) (hx0 : 0 ≤ s.x) (hxb : s.x ≤ b)
    (hk : b - s.ub < 2 ^ (k + 1) * atol) :
    ∃ r, boundedLoop f df atol (k + 1) s = .ok r ∧ b - atol < r ∧ r ≤ b := by
  have hc : ∀ {s : BState}, s.fx = f s.x → s.dfx = df s.x → s.lb = b → 0 ≤ s.ub → s.ub ≤ b → 0 ≤ s.x →
      s.x ≤ b → cond0 s := by
    intro s hfx hdfx hlb hu0 hub hx0 hxb
    unfold cond0
    have h1 := ht s.x s.ub hx0 hxb hu0 hub
    have h2 := ht s.x b hx0 hxb (hu0.trans hub) le_rfl
    have p1 := hpos s.ub hu0 hub
    have p2 := hpos b (hu0.trans hub) le_rfl
    rw [hfx, hdfx, hlb]
    apply le_of_lt
    apply mul_pos_of_neg_of_neg <;> nlinarith
  induction k generalizing s with
  | zero =>
    have ha : advance s = .ok (0.5 * (s.ub - s.lb), s.lb + 0.5 * (s.ub - s.lb)) := by
      unfold advance; rw [if_pos (Or.inl (hc hfx hdfx hlb hu0 hub hx0 hxb))]
    refine ⟨s.lb + 0.5 * (s.ub - s.lb), ?_, ?_, ?_⟩
    · simp only [boundedLoop, ha, bind, Except.bind]
      rw [if_pos]
      rw [hlb, abs_lt]
      constructor <;> norm_num at hk ⊢ <;> linarith
    · rw [hlb]; norm_num at hk ⊢; linarith
    · rw [hlb]; linarith
  | succ k ih =>
    have ha : advance s = .ok (0.5 * (s.ub - s.lb), s.lb + 0.5 * (s.ub - s.lb)) := by
      unfold advance; rw [if_pos (Or.inl (hc hfx hdfx hlb hu0 hub hx0 hxb))]
    rw [boundedLoop]
    simp only [ha, bind, Except.bind]
    have hm0 : 0 ≤ s.lb + 0.5 * (s.ub - s.lb) := by rw [hlb]; linarith
    have hmb : s.lb + 0.5 * (s.ub - s.lb) ≤ b := by rw [hlb]; linarith
    split_ifs with hd
    · refine ⟨_, rfl, ?_, hmb⟩
      have := (abs_lt.mp hd).1
      rw [hlb] at this ⊢; linarith
    · have hf := hpos _ hm0 hmb
      refine ih rfl rfl ?_ ?_ ?_ hm0 hmb ?_
      · simp only [tighten]; rw [if_neg (not_lt.mpr hf.le)]; exact hlb
      · simp only [tighten]; rw [if_neg (not_lt.mpr hf.le)]; exact hm0
      · simp only [tighten]; rw [if_neg (not_lt.mpr hf.le)]; exact hmb
      · simp only [tighten]; rw [if_neg (not_lt.mpr hf.le), hlb]
        rw [pow_succ] at hk
        linarith

/-- Supply below capacity (the residual is positive at the full supply): the solver returns the supply, up
to its tolerance, for any amounts below `10^7` metres. -/
theorem runNewton_limited {p : Soil} (hp : p.Physical) {thd ia x0 F1 dt : ℝ} (hthd : 0 < thd) (hF : 0 ≤ F1)
    (hia : 0 ≤ ia * dt) (hcap : 0 < gaF p thd F1 dt (F1 + ia * dt)) (hbig : F1 + ia * dt < 10 ^ 7) :
    ∃ r, runNewton p thd ia x0 F1 dt = .ok r ∧ F1 + ia * dt - 1.48e-8 < r ∧ r ≤ F1 + ia * dt := by
  set b := F1 + ia * dt with hb
  have hb0 : 0 ≤ b := by linarith
  have hdom : 0 < F1 + |p.psi| * thd := by
    rw [abs_of_pos hp.psi]; have := mul_pos hp.psi hthd; linarith
  have hpos : ∀ y, 0 ≤ y → y ≤ b → 0 < gaF p thd F1 dt y := by
    intro y h0 hy
    rcases hy.eq_or_lt with h | h
    · rw [h]; exact hcap
    · exact hcap.trans (gaF_anti hp.psi hthd h0 h)
  have key : ∃ r, boundedNewtonRaphson (gaF p thd F1 dt) (gaD p thd) x0 0 b 50 1.48e-8 = .ok r ∧
      b - 1.48e-8 < r ∧ r ≤ b := by
    unfold boundedNewtonRaphson
    have hin := inv_init (gaF p thd F1 dt) (gaD p thd) x0 0 b
    have hx := hin.x_in
    unfold Hull at hx
    rw [min_eq_left hb0, max_eq_right hb0] at hx
    have hl : (initState (gaF p thd F1 dt) (gaD p thd) x0 0 b).lb = b := by
      simp only [initState]
      split_ifs with h
      · rfl
      · rcases hb0.eq_or_lt with h0 | h0
        · exact h0
        · exact absurd (gaF_anti hp.psi hthd le_rfl h0) h
    have hu : (initState (gaF p thd F1 dt) (gaD p thd) x0 0 b).ub = 0 := by
      simp only [initState]
      split_ifs with h
      · rfl
      · rcases hb0.eq_or_lt with h0 | h0
        · exact h0.symm
        · exact absurd (gaF_anti hp.psi hthd le_rfl h0) h
    refine bisects (k := 49) (by norm_num) ?_ hpos hin.fx_eq hin.dfx_eq hl hu.ge (hu.le.trans hb0) hx.1 hx.2 ?_
    · intro y r hy _ hr _
      exact gaF_tangent hp.psi hthd hy hr
    · rw [hu, sub_zero]
      refine hbig.trans ?_
      norm_num
  obtain ⟨r, h1, h2, h3⟩ := key
  refine ⟨r, ?_, h2, h3⟩
  unfold runNewton
  rw [if_pos hdom, h1]

/-! ### Saturated for ever -/

/-- A saturated step: what is infiltrated is what the solver returns, and the element stays saturated. -/
theorem saturated_step {p : Soil} {dt i : ℝ} (hdt : 0 < dt) (hi : 0 ≤ i) {s s' : GA} (hd : 0 ≤ s.d)
    (hsat : s.sat = true) (hF : 0 ≤ s.F) (h : step p dt i s = .ok s') :
    s'.sat = true ∧ 0 ≤ s'.F ∧ s'.thd = s.thd ∧ s'.T = p.Tr ∧ 0 ≤ s'.d ∧
    runNewton p s.thd (i + s.d / dt) s.F s.F dt = .ok s'.F ∧
    s'.thdu = clampTh p (s.thdu - (s'.F - s.F) / p.Lu) ∧ s'.f = (s'.F - s.F) / dt := by
  obtain ⟨u, hb, rfl⟩ := step_ok h
  have hia : 0 ≤ i + s.d / dt := add_nonneg hi (div_nonneg hd hdt.le)
  generalize hg : i + s.d / dt = ia at hb hia
  simp only [infiltrate, hsat, if_true] at hb
  obtain ⟨F2, hr, rfl⟩ := saturatedCase_ok hb
  have hr' : runNewton p s.thd ia s.F s.F dt = .ok F2 := hr
  have hin := C39_in_interval (runNewton_ok hr').2
  have hge : 0 ≤ s.F + ia * dt := by positivity
  unfold Hull at hin
  rw [min_eq_left hge, max_eq_right hge] at hin
  have hle : ¬ F2 - s.F > ia * dt := by push Not; linarith [hin.2]
  have hmin : min (F2 - s.F) (ia * dt) = F2 - s.F := min_eq_left (not_lt.mp hle)
  simp only [surface, hmin, hle, if_false]
  have e : s.F + (F2 - s.F) = F2 := by ring
  rw [e]
  exact ⟨trivial, hin.1, trivial, trivial, le_max_right _ _, hr', rfl, rfl⟩

/-- **C102 (violated): saturation is for ever.** Whatever rain or dry weather follows, in steps of whatever
sizes: a saturated element is still saturated after any completed run, the deficit that starts a new event
has not changed, the recovery time has just been reset, and neither the cumulative infiltration nor the
deficit of the upper zone has recovered by more than the tolerance of the solver per step. -/
theorem C102_saturated_for_ever {p : Soil} (hp : p.Physical) (inputs : List (ℝ × ℝ))
    (hq : ∀ q ∈ inputs, 0 < q.1 ∧ 0 ≤ q.2) {s s' : GA} (hs : InRange p s) (hsat : s.sat = true)
    (hF : 0 ≤ s.F) (h : run p inputs s = .ok s') :
    s'.sat = true ∧ s'.thd = s.thd ∧ (inputs ≠ [] → s'.T = p.Tr) ∧
    s.F - inputs.length * 1.48e-8 ≤ s'.F ∧
    s'.thdu ≤ s.thdu + inputs.length * (1.48e-8 / p.Lu) := by
  have hLu := hp.Lu
  induction inputs generalizing s with
  | nil => injection h with h; subst h; simp [hsat]
  | cons q rest ih =>
    obtain ⟨dt, i⟩ := q
    obtain ⟨hdt, hi⟩ : 0 < dt ∧ 0 ≤ i := hq (dt, i) (by simp)
    unfold run at h
    cases hb : step p dt i s with
    | error e => rw [hb] at h; simp [bind, Except.bind] at h
    | ok u =>
      rw [hb] at h
      simp only [bind, Except.bind] at h
      obtain ⟨h1, h2, h3, h4, -, h5, h6, -⟩ := saturated_step hdt hi hs.d_lo hsat hF hb
      have hu := C35_step hp hdt hs hb
      obtain ⟨k1, k2, k3, k4, k5⟩ := ih (fun q hq' => hq q (by simp [hq'])) hu h1 h2 h
      have hia : 0 ≤ i + s.d / dt := add_nonneg hi (div_nonneg hs.d_lo hdt.le)
      have hlow := runNewton_lower hp hs.thd_lo hia hdt.le h5
      refine ⟨k1, k2.trans h3, ?_, ?_, ?_⟩
      · intro _
        by_cases hr : rest = []
        · subst hr; injection h with h; rw [← h]; exact h4
        · exact k3 hr
      · simp only [List.length_cons]; push_cast; linarith
      · simp only [List.length_cons]; push_cast
        have hth : u.thdu ≤ s.thdu + 1.48e-8 / p.Lu := by
          rw [h6]
          have e : s.thdu - (u.F - s.F) / p.Lu ≤ s.thdu + 1.48e-8 / p.Lu := by
            have : -(u.F - s.F) / p.Lu ≤ 1.48e-8 / p.Lu := by
              rw [div_le_div_iff_of_pos_right hLu]; linarith
            rw [neg_div] at this; linarith
          have h0 : 0 ≤ s.thdu + 1.48e-8 / p.Lu := by
            have := hs.thdu_lo; positivity
          exact (min_le_left _ _).trans (max_le e h0)
        linarith

/-- What the tolerance of the solver can leave on the surface in a dry step. -/
noncomputable def residue (dt : ℝ) : ℝ := 1.48e-8 * max 1 (1 / dt)

/-- One dry step on a saturated element with no more than the residue on its surface, with steps long
enough that the soil could take up the residue: it completes, and nothing has recovered. -/
theorem saturated_dry_step {p : Soil} (hp : p.Physical) {dt : ℝ} (hdt : 0 < dt)
    (hlong : residue dt < p.Ks * dt) {s : GA} (hs : InRange p s) (hsat : s.sat = true) (hF : 0 ≤ s.F)
    (hd : s.d ≤ residue dt) (hbig : s.F + residue dt < 10 ^ 7) :
    ∃ s', step p dt 0 s = .ok s' ∧ s'.sat = true ∧ 0 ≤ s'.F ∧ s'.F ≤ s.F + residue dt ∧
      s'.d ≤ residue dt := by
  have hia : 0 ≤ 0 + s.d / dt := by have := hs.d_lo; positivity
  have hprod : (0 + s.d / dt) * dt = s.d := by field_simp; ring
  have hcap : 0 < gaF p s.thd s.F dt (s.F + (0 + s.d / dt) * dt) := by
    rw [hprod]
    have hc : 0 < p.psi * s.thd := mul_pos hp.psi hs.thd_lo
    have hl : Real.log (s.F + p.psi * s.thd) ≤ Real.log (s.F + s.d + p.psi * s.thd) :=
      Real.log_le_log (by linarith) (by linarith [hs.d_lo])
    have := mul_le_mul_of_nonneg_left hl hc.le
    unfold gaF
    rw [abs_of_pos hp.psi]
    linarith
  obtain ⟨r, hr, hr1, hr2⟩ := runNewton_limited (x0 := s.F) (ia := 0 + s.d / dt) hp hs.thd_lo hF
    (by rw [hprod]; exact hs.d_lo) hcap (by rw [hprod]; linarith)
  rw [hprod] at hr1 hr2
  have hok : ∃ u, step p dt 0 s = .ok u := by
    simp only [step, available, infiltrate, hsat, if_true, saturatedCase]
    have hr' : runNewton p s.thd (0 + s.d / dt) s.F s.F dt = .ok r := hr
    simp only [hr', bind, Except.bind, pure, Except.pure]
    exact ⟨_, rfl⟩
  obtain ⟨u, hu⟩ := hok
  obtain ⟨h1, h2, -, -, -, h5, -, h7⟩ := saturated_step hdt le_rfl hs.d_lo hsat hF hu
  rw [hr] at h5
  injection h5 with h5
  refine ⟨u, hu, h1, h2, by rw [← h5]; linarith, ?_⟩
  have hud : u.d = max (s.d + (0 - u.f)) 0 := by
    obtain ⟨v, hv, rfl⟩ := step_ok hu
    simp only [infiltrate, hsat, if_true] at hv
    obtain ⟨F2, -, rfl⟩ := saturatedCase_ok hv
    rfl
  have hres : 0 ≤ residue dt := by unfold residue; positivity
  rw [hud, h7, ← h5]
  refine max_le ?_ hres
  have e1 : (s.d - 1.48e-8) / dt ≤ (r - s.F) / dt := by
    rw [div_le_div_iff_of_pos_right hdt]; linarith
  have e2 : s.d + (0 - (s.d - 1.48e-8) / dt) ≤ residue dt := by
    unfold residue at hd ⊢
    rcases le_total 1 dt with h | h
    · rw [max_eq_left ((div_le_one hdt).mpr h), mul_one] at hd ⊢
      have : s.d + (0 - (s.d - 1.48e-8) / dt) = 1.48e-8 - (1.48e-8 - s.d) * (1 - 1 / dt) := by
        field_simp; ring
      rw [this]
      have h' : 0 ≤ 1 - 1 / dt := by rw [sub_nonneg, div_le_one hdt]; exact h
      nlinarith [mul_nonneg (sub_nonneg.mpr hd) h']
    · rw [max_eq_right ((one_le_div hdt).mpr h)] at hd ⊢
      have : s.d + (0 - (s.d - 1.48e-8) / dt) = 1.48e-8 * (1 / dt) - s.d * (1 / dt - 1) := by
        field_simp; ring
      rw [this]
      have h' : 0 ≤ 1 / dt - 1 := by rw [sub_nonneg]; exact (one_le_div hdt).mpr h
      nlinarith [mul_nonneg hs.d_lo h']
  linarith

/-- **C102 (violated): dry weather.** A saturated element without ponded water, during any number of dry
steps: every step completes, and however long the dry weather lasts the element is saturated as before, its
deficit has not recovered and no new event begins. (Steps long enough that the soil can take up what the
tolerance of the solver leaves on the surface; for sandy soils about a hundredth of a second, for clays a
second.) -/
theorem C102_dry_for_ever {p : Soil} (hp : p.Physical) (n : ℕ) {dt : ℝ} (hdt : 0 < dt)
    (hlong : residue dt < p.Ks * dt) {s : GA} (hs : InRange p s) (hsat : s.sat = true) (hF : 0 ≤ s.F)
    (hd : s.d = 0) (hbig : s.F + n * residue dt < 10 ^ 7) :
    ∃ s', run p (List.replicate n (dt, 0)) s = .ok s' ∧ s'.sat = true ∧ s'.thd = s.thd ∧
      s.F - n * 1.48e-8 ≤ s'.F ∧ s'.thdu ≤ s.thdu + n * (1.48e-8 / p.Lu) := by
  have hres : 0 ≤ residue dt := by unfold residue; positivity
  have hret : ∀ (n : ℕ) {s : GA}, InRange p s → s.sat = true → 0 ≤ s.F → s.d ≤ residue dt →
      s.F + n * residue dt < 10 ^ 7 → ∃ s', run p (List.replicate n (dt, 0)) s = .ok s' := by
    intro n
    induction n with
    | zero => intro s _ _ _ _ _; exact ⟨s, rfl⟩
    | succ n ih =>
      intro s hs hsat hF hd hbig
      push_cast at hbig
      have hn : (0 : ℝ) ≤ n * residue dt := by positivity
      obtain ⟨u, hu, h1, h2, h3, h4⟩ := saturated_dry_step hp hdt hlong hs hsat hF hd (by linarith)
      obtain ⟨s', hs'⟩ := ih (C35_step hp hdt hs hu) h1 h2 h4 (by linarith)
      refine ⟨s', ?_⟩
      simp only [List.replicate_succ, run, hu, bind, Except.bind]
      exact hs'
  obtain ⟨s', hs'⟩ := hret n hs hsat hF (hd.le.trans hres) hbig
  obtain ⟨h1, h2, -, h4, h5⟩ := C102_saturated_for_ever hp _ (by
    intro q hq
    obtain rfl := List.eq_of_mem_replicate hq
    exact ⟨hdt, le_rfl⟩) hs hsat hF hs'
  rw [List.length_replicate] at h4 h5
  exact ⟨s', hs', h1, h2, h4, h5⟩

/-! ### How saturation is reached -/

/-- A bracket narrower than the tolerance: the solver returns at once. -/
theorem bounded_narrow {f df : ℝ → ℝ} {x0 a b atol : ℝ} (h : |b - a| < 2 * atol) (n : ℕ) :
    ∃ r, boundedNewtonRaphson f df x0 a b (n + 1) atol = .ok r := by
  unfold boundedNewtonRaphson
  set s := initState f df x0 a b with hs
  have hw : |s.ub - s.lb| = |b - a| ∧ s.dx = |s.ub - s.lb| := by
    rw [hs]
    simp only [initState]
    split_ifs
    · exact ⟨abs_sub_comm _ _, trivial⟩
    · exact ⟨rfl, trivial⟩
  rw [boundedLoop]
  unfold advance
  by_cases hc : cond0 s ∨ cond1 s
  · rw [if_pos hc]
    simp only [bind, Except.bind]
    rw [if_pos]
    · exact ⟨_, rfl⟩
    · rw [abs_mul, hw.1, abs_of_pos (by norm_num : (0 : ℝ) < 0.5)]; linarith
  · rw [if_neg hc]
    push Not at hc
    obtain ⟨hne, -⟩ := newton_inside hc.1
    have h1 := hc.2
    unfold cond1 at h1
    push Not at h1
    simp only [pyDiv_ok _ hne, bind, Except.bind]
    rw [if_pos]
    · exact ⟨_, rfl⟩
    · rw [abs_div, div_lt_iff₀ (abs_pos.mpr hne)]
      rw [abs_mul, abs_mul, abs_of_pos (by norm_num : (0 : ℝ) < 2), hw.2, abs_abs, hw.1] at h1
      have := abs_pos.mpr hne
      nlinarith

/-- **C102 (violated on every soil).** For every soil there is weather — two showers — that saturates a
fresh element, and from then on it is saturated after every weather: no dry period ends the event. -/
theorem C102_every_soil {p : Soil} (hp : p.Physical) :
    ∃ (rain : List (ℝ × ℝ)) (s : GA), (∀ q ∈ rain, 0 < q.1 ∧ 0 < q.2) ∧ run p rain (initial p) = .ok s ∧
      ∀ (later : List (ℝ × ℝ)) (s' : GA), (∀ q ∈ later, 0 < q.1 ∧ 0 ≤ q.2) → run p later s = .ok s' →
        s'.sat = true ∧ s'.thd = p.thmax ∧ s.F - later.length * 1.48e-8 ≤ s'.F := by
  have hK := hp.Ks
  have ha : 0 < p.psi * p.thmax := mul_pos hp.psi hp.thmax
  -- first shower
  set F1 := min 1e-8 (p.psi * p.thmax / 2) with hF1
  have hF1pos : 0 < F1 := lt_min (by norm_num) (by linarith)
  have hF1le : F1 ≤ 1e-8 := min_le_left _ _
  have hF1a : F1 < p.psi * p.thmax := lt_of_le_of_lt (min_le_right _ _) (by linarith)
  set dt1 := F1 / (2 * p.Ks) with hdt1
  have hdt1pos : 0 < dt1 := by positivity
  have e1 : 2 * p.Ks * dt1 = F1 := by rw [hdt1]; field_simp
  have hfs : Fsat p (2 * p.Ks) p.thmax = p.psi * p.thmax := by unfold Fsat; field_simp; ring
  have hs1 := first_step hp (dt := dt1) (i := 2 * p.Ks) (by linarith) (by rw [e1, hfs]; exact hF1a)
  set s1 := surface p dt1 (2 * p.Ks) { initial p with
      T := p.Tr
      f := 2 * p.Ks
      F := 0 + 2 * p.Ks * dt1
      thdu := clampTh p (p.thmax - 2 * p.Ks * dt1 / p.Lu) } with hs1def
  have hd1 : s1.d = 0 := by rw [hs1def]; simp [surface, initial]
  have hsat1 : s1.sat = false := rfl
  have hthd1 : s1.thd = p.thmax := rfl
  have hF : s1.F = F1 := by rw [hs1def]; simp only [surface]; rw [e1, zero_add]
  have hr1 : InRange p s1 := C35_step hp hdt1pos (inRange_initial hp) hs1
  -- second shower
  set i2 := p.Ks + p.Ks * (p.psi * p.thmax) / F1 with hi2
  have hi2K : p.Ks < i2 := by
    have : 0 < p.Ks * (p.psi * p.thmax) / F1 := by positivity
    linarith
  have hi2pos : 0 < i2 := hK.trans hi2K
  set dt2 := 1e-8 / i2 with hdt2
  have hdt2pos : 0 < dt2 := by positivity
  have e2 : i2 * dt2 = 1e-8 := by rw [hdt2]; field_simp
  have hfs2 : Fsat p i2 p.thmax = F1 := by
    unfold Fsat
    rw [hi2, show p.Ks + p.Ks * (p.psi * p.thmax) / F1 - p.Ks = p.Ks * p.psi * p.thmax / F1 by ring]
    have := hp.psi.ne'
    have := hp.thmax.ne'
    field_simp
  have hN : ∃ r, runNewton p p.thmax i2 F1 F1 dt2 = .ok r := by
    unfold runNewton
    rw [if_pos (by rw [abs_of_pos hp.psi]; linarith), e2]
    obtain ⟨r, hr⟩ := bounded_narrow (f := gaF p p.thmax F1 dt2) (df := gaD p p.thmax) (x0 := F1) (a := 0)
      (b := F1 + 1e-8) (atol := 1.48e-8) (by
        rw [sub_zero, abs_of_pos (by linarith)]
        norm_num at hF1le ⊢; linarith) 49
    exact ⟨r, by rw [hr]⟩
  obtain ⟨r, hr⟩ := hN
  have hok : ∃ u, step p dt2 i2 s1 = .ok u := by
    have eK : p.Ks * p.psi * p.thmax / (i2 - p.Ks) = F1 := hfs2
    simp only [step, available, hd1, zero_div, add_zero, infiltrate, hsat1, Bool.false_eq_true, if_false,
      if_neg hi2pos.ne', if_neg (not_le.mpr hi2K), if_pos hi2K, gt_iff_lt, case3, hthd1, eK, hF, ge_iff_le,
      le_refl, if_true, saturatedCase, hr, bind, Except.bind, pure, Except.pure]
    exact ⟨_, rfl⟩
  obtain ⟨u, hu⟩ := hok
  have hru : InRange p u := C35_step hp hdt2pos hr1 hu
  have hpost : u.sat = true ∧ 0 ≤ u.F ∧ u.thd = p.thmax := by
    obtain ⟨v, hv, rfl⟩ := step_ok hu
    rw [hd1, zero_div, add_zero] at hv
    rcases infiltrate_ok hp.Ks hv with ⟨h, -⟩ | ⟨-, h, -⟩ | ⟨-, -, h⟩
    · simp [hsat1] at h
    · exact absurd h (not_le.mpr hi2K)
    · have eFs : Fsat p i2 s1.thd = F1 := by rw [hthd1]; exact hfs2
      rcases case3_ok h with ⟨-, h⟩ | ⟨h, -⟩ | ⟨h, -⟩
      · obtain ⟨F2, h2, rfl⟩ := saturatedCase_ok h
        have hin := C39_in_interval (runNewton_ok h2).2
        have hin' : Hull 0 (s1.F + i2 * dt2) F2 := hin
        have hge : 0 ≤ s1.F + i2 * dt2 := by rw [hF, e2]; positivity
        unfold Hull at hin'
        rw [min_eq_left hge, max_eq_right hge] at hin'
        have hle : ¬ F2 - s1.F > i2 * dt2 := by push Not; linarith [hin'.2]
        refine ⟨?_, ?_, rfl⟩
        · show (if F2 - s1.F > i2 * dt2 then false else true) = true
          rw [if_neg hle]
        · show 0 ≤ s1.F + min (F2 - s1.F) (i2 * dt2)
          rw [min_eq_left (not_lt.mp hle)]
          linarith [hin'.1]
      · have h' : s1.F < Fsat p i2 s1.thd := h
        rw [eFs, hF] at h'; exact absurd h' (lt_irrefl _)
      · have h' : s1.F < Fsat p i2 s1.thd := h
        rw [eFs, hF] at h'; exact absurd h' (lt_irrefl _)
  refine ⟨[(dt1, 2 * p.Ks), (dt2, i2)], u, ?_, ?_, ?_⟩
  · intro q hq
    simp only [List.mem_cons, List.not_mem_nil, or_false] at hq
    rcases hq with rfl | rfl
    · exact ⟨hdt1pos, by positivity⟩
    · exact ⟨hdt2pos, hi2pos⟩
  · simp only [run, hs1, hu, bind, Except.bind]
  · intro later s' hl h
    obtain ⟨k1, k2, -, k4, -⟩ := C102_saturated_for_ever hp later hl hru hpost.1 hpost.2.1 h
    exact ⟨k1, k2.trans hpost.2.2, k4⟩

/-! ### Unsaturated soils recover -/

/-- One dry step of an unsaturated element without ponded water. -/
theorem unsaturated_dry_step {p : Soil} (hp : p.Physical) {dt : ℝ} (hdt : 0 < dt) {s : GA} (hs : InRange p s)
    (hsat : s.sat = false) (hd : s.d = 0) :
    ∃ u, step p dt 0 s = .ok u ∧ u.sat = false ∧ u.d = 0 ∧ u.f = 0 ∧
      u.thdu = min (s.thdu + p.kr * p.thmax * dt) p.thmax ∧ u.T = s.T - dt ∧
      (s.T ≤ dt → u.F = 0 ∧ u.thd = u.thdu) ∧ (dt < s.T → u.thd = s.thd) := by
  have hcl : clampTh p (s.thdu + p.kr * p.thmax * dt) = min (s.thdu + p.kr * p.thmax * dt) p.thmax := by
    unfold clampTh
    rw [max_eq_left]
    have h1 := hs.thdu_lo
    have h2 := hp.kr
    have h3 := hp.thmax
    positivity
  have hcl2 : clampTh p (min (s.thdu + p.kr * p.thmax * dt) p.thmax - 0 * dt / p.Lu)
      = min (s.thdu + p.kr * p.thmax * dt) p.thmax := by
    rw [← hcl, zero_mul, zero_div, sub_zero]
    have hr := clampTh_range hp (s.thdu + p.kr * p.thmax * dt)
    generalize clampTh p (s.thdu + p.kr * p.thmax * dt) = c at hr
    unfold clampTh
    rw [max_eq_left hr.1, min_eq_left hr.2]
  refine ⟨surface p dt 0 (case2 p dt 0 (case1 p dt { s with T := s.T - dt })), ?_, ?_, ?_, ?_, ?_, ?_, ?_, ?_⟩
  · simp only [step, available, hd, zero_div, add_zero, infiltrate, hsat, Bool.false_eq_true, if_false, if_true,
      gt_iff_lt, hp.Ks.le, if_neg (not_lt.mpr hp.Ks.le), bind, Except.bind, pure, Except.pure]
  · exact hsat
  · simp [surface, case2, case1, hd]
  · simp [surface, case2]
  · simp only [surface, case2, case1, hcl, hcl2]
  · simp only [surface, case2, case1]
  · intro hT
    simp only [surface, case2, case1, hcl, hcl2]
    rw [if_pos (by linarith), if_pos (by linarith)]
    exact ⟨by ring, rfl⟩
  · intro hT
    simp only [surface, case2, case1]
    rw [if_neg (by linarith)]

/-- **C102 (what holds).** An unsaturated element without ponded water, in dry weather of any number of
steps of any sizes: the steps complete, nothing infiltrates, the deficit of the upper zone grows at the rate
`kr · theta_dmax` up to its maximum — it is full after the time `1 / kr` at the latest — and once the
recovery time has passed a new event begins: no cumulative infiltration, with the recovered deficit. -/
theorem C102_recovers_partial {p : Soil} (hp : p.Physical) (dts : List ℝ) (hq : ∀ dt ∈ dts, 0 < dt) {s : GA}
    (hs : InRange p s) (hsat : s.sat = false) (hd : s.d = 0) :
    ∃ s', run p (dts.map fun dt => (dt, 0)) s = .ok s' ∧ s'.sat = false ∧ s'.d = 0 ∧
      s'.thdu = min (s.thdu + p.kr * p.thmax * dts.sum) p.thmax ∧ s'.T = s.T - dts.sum ∧
      (1 / p.kr ≤ dts.sum → s'.thdu = p.thmax) ∧
      (dts ≠ [] → s.T ≤ dts.sum → s'.F = 0 ∧ s'.thd = s'.thdu) := by
  have hkr := hp.kr
  have hth := hp.thmax
  have key : ∃ s', run p (dts.map fun dt => (dt, 0)) s = .ok s' ∧ s'.sat = false ∧ s'.d = 0 ∧
      s'.thdu = min (s.thdu + p.kr * p.thmax * dts.sum) p.thmax ∧ s'.T = s.T - dts.sum ∧
      (dts ≠ [] → s.T ≤ dts.sum → s'.F = 0 ∧ s'.thd = s'.thdu) := by
    induction dts generalizing s with
    | nil => exact ⟨s, rfl, hsat, hd, by simp [hs.thdu_hi], by simp, by simp⟩
    | cons dt rest ih =>
      have hdt : 0 < dt := hq dt (by simp)
      obtain ⟨u, hu, h1, h2, -, h3, h4, h5, -⟩ := unsaturated_dry_step hp hdt hs hsat hd
      obtain ⟨s', k0, k1, k2, k3, k4, k5⟩ := ih (fun x hx => hq x (by simp [hx])) (C35_step hp hdt hs hu) h1 h2
      refine ⟨s', ?_, k1, k2, ?_, ?_, ?_⟩
      · simp only [List.map_cons, run, hu, bind, Except.bind]; exact k0
      · have hr : 0 ≤ rest.sum := List.sum_nonneg fun x hx => (hq x (by simp [hx])).le
        have hp0 : 0 ≤ p.kr * p.thmax * rest.sum := by positivity
        rw [k3, h3, List.sum_cons]
        rcases le_total (s.thdu + p.kr * p.thmax * dt) p.thmax with h | h
        · rw [min_eq_left h]; congr 1; ring
        · rw [min_eq_right h, min_eq_right (by linarith), min_eq_right]
          rw [mul_add]; linarith
      · rw [k4, h4, List.sum_cons]; ring
      · intro _ hT
        rw [List.sum_cons] at hT
        by_cases hr : rest = []
        · subst hr
          injection k0 with k0
          rw [← k0]
          exact h5 (by simpa using hT)
        · exact k5 hr (by rw [h4]; linarith)
  obtain ⟨s', k0, k1, k2, k3, k4, k5⟩ := key
  refine ⟨s', k0, k1, k2, k3, k4, ?_, k5⟩
  intro h
  rw [k3, min_eq_right]
  have : p.kr * p.thmax * (1 / p.kr) ≤ p.kr * p.thmax * dts.sum := mul_le_mul_of_nonneg_left h (by positivity)
  have e : p.kr * p.thmax * (1 / p.kr) = p.thmax := by field_simp
  linarith [hs.thdu_lo]

/-- Non-vacuity: a soil, half recovered, in two dry steps that outlast the recovery time. -/
example : ∃ (p : Soil) (s s' : GA), p.Physical ∧ InRange p s ∧ s.sat = false ∧ s.F = 1 ∧
    run p [(1, 0), (2, 0)] s = .ok s' ∧ s'.F = 0 := by
  let p : Soil := ⟨1, 1, 1, 1⟩
  have hp : p.Physical := ⟨one_pos, one_pos, one_pos, zero_le_one⟩
  let s : GA := ⟨1, 0, 1 / 2, 1, 3, 0, 0, 0, false⟩
  have hs : InRange p s := ⟨by norm_num, by norm_num, one_pos, le_rfl, le_rfl, le_rfl⟩
  obtain ⟨s', h, -, -, -, -, -, h7⟩ := C102_recovers_partial hp [1, 2] (by
    intro x hx; simp only [List.mem_cons, List.not_mem_nil, or_false] at hx; rcases hx with rfl | rfl <;> norm_num)
    hs rfl rfl
  exact ⟨p, s, s', hp, hs, rfl, rfl, h, (h7 (by simp) (by norm_num)).1⟩

/-- Non-vacuity of `C102_dry_for_ever`: a saturated element and a thousand dry steps of an hour. -/
example : ∃ (p : Soil) (s s' : GA), p.Physical ∧ InRange p s ∧ s.sat = true ∧ 0 < s.F ∧
    run p (List.replicate 1000 (3600, 0)) s = .ok s' ∧ s'.sat = true ∧ s'.F ≠ 0 := by
  let p : Soil := ⟨1, 1, 1, 1⟩
  have hp : p.Physical := ⟨one_pos, one_pos, one_pos, zero_le_one⟩
  let s : GA := ⟨1, 0, 1 / 2, 1, 3, 0, 0, 0, true⟩
  have hs : InRange p s := ⟨by norm_num, by norm_num, one_pos, le_rfl, le_rfl, le_rfl⟩
  have hr : residue 3600 = 1.48e-8 := by
    unfold residue; rw [max_eq_left (by norm_num)]; norm_num
  obtain ⟨s', h, h1, -, h3, -⟩ := C102_dry_for_ever hp 1000 (dt := 3600) (by norm_num)
    (by rw [hr]; show (1.48e-8 : ℝ) < 1 * 3600; norm_num) hs rfl (by norm_num) rfl
    (by rw [hr]; show (1 : ℝ) + _ < _; norm_num)
  refine ⟨p, s, s', hp, hs, rfl, one_pos, h, h1, ?_⟩
  have : (1 : ℝ) - (1000 : ℕ) * 1.48e-8 ≤ s'.F := h3
  intro h0
  rw [h0] at this
  norm_num at this

end Pipedream.Infiltration
