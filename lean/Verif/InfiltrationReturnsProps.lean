import Verif.RootReturnsProps
import Verif.InfiltrationTwinProps
import Mathlib.Analysis.SpecialFunctions.Arsinh
import Mathlib.Analysis.Complex.ExponentialBounds

/-!
# C139: an infiltration step completes

`nGreenAmpt.step` solves the integrated Green–Ampt equation by `bounded_newton_raphson`, which raises when 50
iterations do not suffice. They always do, unless an element holds more than ten thousand kilometres of
water. The same for the class used without numba (C103), once something has infiltrated.
-/

namespace Pipedream.Infiltration

open Pipedream.Link Pipedream.Root

/-! ### The residual -/

/-- The logarithm grows no faster than the mean of the slopes at the two ends. -/
theorem log_trapezoid {u v : ℝ} (hu : 0 < u) (huv : u ≤ v) :
    Real.log v - Real.log u ≤ (v - u) * ((1 / v + 1 / u) / 2) := by
  have hv : 0 < v := hu.trans_le huv
  have ht : 0 < v / u := div_pos hv hu
  have h1 : 0 ≤ Real.log (v / u) := Real.log_nonneg ((one_le_div hu).mpr huv)
  have h2 := Real.self_le_sinh_iff.mpr h1
  rw [Real.sinh_log ht, Real.log_div hv.ne' hu.ne'] at h2
  have e : (v / u - (v / u)⁻¹) / 2 = (v - u) * ((1 / v + 1 / u) / 2) := by field_simp; ring
  rwa [e] at h2

theorem gaF_concave {p : Soil} (hp : p.Physical) {thd F1 dt : ℝ} (hthd : 0 < thd) (B : ℝ) :
    Concave (gaF p thd F1 dt) (gaD p thd) B := by
  have hc : 0 < p.psi * thd := mul_pos hp.psi hthd
  refine ⟨?_, ?_, ?_, ?_, ?_⟩
  · intro y z hy _ hz _
    exact gaF_tangent hp.psi hthd hy hz
  · intro y z hz hzy _
    have h := log_trapezoid (u := z + p.psi * thd) (v := y + p.psi * thd) (by linarith) (by linarith)
    unfold gaF gaD
    rw [abs_of_pos hp.psi]
    generalize p.psi * thd = c at *
    have h2 := mul_le_mul_of_nonneg_left h hc.le
    have e : c * ((y + c - (z + c)) * ((1 / (y + c) + 1 / (z + c)) / 2)) =
        (y - z) * ((c / (c + y) - 1 + (c / (c + z) - 1)) / 2) + (y - z) := by
      rw [add_comm c y, add_comm c z]; ring
    rw [e] at h2
    linarith
  · intro y z hz hzy _
    unfold gaD
    have : p.psi * thd / (p.psi * thd + y) < p.psi * thd / (p.psi * thd + z) :=
      div_lt_div_of_pos_left hc (by linarith) (by linarith)
    linarith
  · intro y z hz hzy _
    rw [gaD_eq hp hthd hz, gaD_eq hp hthd (hz.trans hzy), mul_neg, mul_neg, neg_le_neg_iff]
    have h1 : z * (y / (p.psi * thd + y)) = z * y / (p.psi * thd + y) := by ring
    have h2 : y * (z / (p.psi * thd + z)) = z * y / (p.psi * thd + z) := by ring
    rw [h1, h2]
    exact div_le_div_of_nonneg_left (mul_nonneg hz (hz.trans hzy)) (by linarith) (by linarith)
  · intro y hy _
    rw [gaD_eq hp hthd hy.le]
    exact neg_neg_of_pos (by positivity)

/-! ### The solver of the class with numba -/

/-- `run_green_ampt_newton` returns whenever the search interval is shorter than `10^7` metres. -/
theorem runNewton_returns {p : Soil} (hp : p.Physical) {thd ia x0 F1 dt : ℝ} (hthd : 0 < thd)
    (hF : 0 ≤ F1) (hdt : 0 ≤ dt) (hwet : 0 < F1 ∨ 0 < dt) (hia : 0 ≤ ia * dt)
    (hbig : F1 + ia * dt < 10 ^ 7) : ∃ q, runNewton p thd ia x0 F1 dt = .ok q := by
  by_cases hcap : 0 < gaF p thd F1 dt (F1 + ia * dt)
  · obtain ⟨q, hq, -⟩ := runNewton_limited (x0 := x0) hp hthd hF hia hcap hbig
    exact ⟨q, hq⟩
  · push Not at hcap
    obtain ⟨r, hFr, h0⟩ := gaF_root hp hthd hF hdt
    have hr : 0 < r := by
      rcases hwet with h | h
      · exact h.trans_le hFr
      · refine lt_of_le_of_ne (hF.trans hFr) ?_
        intro h'
        have hF0 : F1 = 0 := le_antisymm (hFr.trans h'.symm.le) hF
        rw [← h', hF0, gaF_self] at h0
        exact absurd h0 (mul_pos hp.Ks h).ne'
    have hrB : r ≤ F1 + ia * dt := by
      by_contra hcon
      push Not at hcon
      have := gaF_anti (F1 := F1) (dt := dt) hp.psi hthd (by linarith) hcon
      rw [h0] at this; linarith
    obtain ⟨q, hq⟩ := concave_returns (x0 := x0) (gaF_concave (F1 := F1) (dt := dt) hp hthd (F1 + ia * dt)) hr
      hrB h0 (atol := 1.48e-8) (by norm_num) 48 (hbig.trans (by norm_num))
    refine ⟨q, ?_⟩
    unfold runNewton
    rw [if_pos (by rw [abs_of_pos hp.psi]; have := mul_pos hp.psi hthd; linarith)]
    rw [show (48 + 2 : ℕ) = 50 from rfl] at hq
    rw [hq]

/-! ### Steps and runs -/

/-- States in which the next step can be taken: physical ranges, and a saturated element has not lost more
water than it took up. Every state of a run from a fresh element is of this kind (`C139_sound`). -/
structure Sound (p : Soil) (s : GA) : Prop where
  range : InRange p s
  sat_F : s.sat = true → 0 ≤ s.F

theorem sound_initial {p : Soil} (hp : p.Physical) : Sound p (initial p) :=
  ⟨inRange_initial hp, fun h => by simp [initial] at h⟩

theorem C139_sound {p : Soil} (hp : p.Physical) {dt i : ℝ} (hdt : 0 < dt) (hi : 0 ≤ i) {s s' : GA}
    (hs : Sound p s) (h : step p dt i s = .ok s') : Sound p s' := by
  refine ⟨C35_step hp hdt hs.range h, ?_⟩
  intro hsat'
  by_cases hsat : s.sat = true
  · exact (saturated_step hdt hi hs.range.d_lo hsat (hs.sat_F hsat) h).2.1
  · obtain ⟨u, hb, rfl⟩ := step_ok h
    have hia : 0 ≤ i + s.d / dt := add_nonneg hi (div_nonneg hs.range.d_lo hdt.le)
    generalize i + s.d / dt = ia at hb hia
    change u.sat = true at hsat'
    show 0 ≤ u.F
    rcases infiltrate_ok hp.Ks hb with ⟨h, -⟩ | ⟨h, -, rfl⟩ | ⟨h, hK, h3⟩
    · exact absurd h hsat
    · exfalso
      simp only [case2] at hsat'
      split_ifs at hsat'
      · exact hsat hsat'
      · exact hsat hsat'
    · rcases case3_ok h3 with ⟨c, h⟩ | ⟨-, -, rfl⟩ | ⟨-, -, F2, -, rfl⟩
      · obtain ⟨F2, hr, rfl⟩ := saturatedCase_ok h
        have hFs := Fsat_pos hp hK hs.range.thd_lo
        have hF : 0 < s.F := hFs.trans_le c
        have hin := C39_in_interval (runNewton_ok hr).2
        change Hull 0 (s.F + ia * dt) F2 at hin
        have hprod : 0 ≤ ia * dt := mul_nonneg hia hdt.le
        unfold Hull at hin
        rw [min_eq_left (by linarith)] at hin
        show 0 ≤ s.F + min (F2 - s.F) (ia * dt)
        rcases min_choice (F2 - s.F) (ia * dt) with h | h <;> rw [h]
        · linarith [hin.1]
        · linarith
      · exact absurd hsat' hsat
      · exact absurd hsat' hsat

/-- **C139 (a step completes).** Every soil, every sound state, every rain and step size: the step raises
nothing, if the water infiltrated so far plus the water on offer is less than `10^7` metres. -/
theorem C139_step {p : Soil} (hp : p.Physical) {dt i : ℝ} (hdt : 0 < dt) (hi : 0 ≤ i) {s : GA}
    (hs : Sound p s) (hbig : s.F + (i * dt + s.d) < 10 ^ 7) : ∃ s', step p dt i s = .ok s' := by
  have hia : 0 ≤ i + s.d / dt := add_nonneg hi (div_nonneg hs.range.d_lo hdt.le)
  have hprod : (i + s.d / dt) * dt = i * dt + s.d := by field_simp
  rw [← hprod] at hbig
  have hthd := hs.range.thd_lo
  have hinf : ∃ u, infiltrate p dt (i + s.d / dt) { s with T := s.T - dt } = .ok u := by
    generalize i + s.d / dt = ia at hia hbig
    have hiadt : 0 ≤ ia * dt := mul_nonneg hia hdt.le
    have hsatc : ∀ (T : ℝ) (b : Bool), 0 ≤ s.F →
        ∃ u, saturatedCase p dt ia { s with T := T, sat := b } = .ok u := by
      intro T b hF
      obtain ⟨q, hq⟩ := runNewton_returns (x0 := s.F) hp hthd hF hdt.le (Or.inr hdt) hiadt hbig
      unfold saturatedCase
      simp only [hq, bind, Except.bind, pure, Except.pure]
      exact ⟨_, rfl⟩
    simp only [infiltrate]
    by_cases hsat : s.sat = true
    · rw [if_pos hsat]
      exact hsatc _ _ (hs.sat_F hsat)
    · rw [if_neg hsat]
      by_cases hK : ia ≤ p.Ks
      · rw [if_neg (not_lt.mpr hK)]
        exact ⟨_, rfl⟩
      · push Not at hK
        have hia0 : 0 < ia := hp.Ks.trans hK
        have hFs := Fsat_pos hp hK hthd
        rw [if_pos hK, if_neg (not_le.mpr hK), if_neg hia0.ne']
        simp only [case3]
        have eF : p.Ks * p.psi * s.thd / (ia - p.Ks) = Fsat p ia s.thd := rfl
        rw [eF]
        split_ifs with c1 c2
        · exact hsatc _ _ (hFs.le.trans c1)
        · exact ⟨_, rfl⟩
        · push Not at c1 c2
          have hsub : 0 ≤ dt - (Fsat p ia s.thd - s.F) / ia := by
            rw [sub_nonneg, div_le_iff₀ hia0]; linarith
          obtain ⟨q, hq⟩ := runNewton_returns (x0 := s.F) (ia := ia) hp hthd hFs.le hsub (Or.inl hFs)
            (mul_nonneg hia hsub) (by rw [sub_bracket hia0.ne']; exact hbig)
          simp only [hq, bind, Except.bind, pure, Except.pure]
          exact ⟨_, rfl⟩
  obtain ⟨u, hu⟩ := hinf
  refine ⟨surface p dt i u, ?_⟩
  simp only [step, available, hu, bind, Except.bind, pure, Except.pure]

theorem run_sound {p : Soil} (hp : p.Physical) (inputs : List (ℝ × ℝ))
    (hq : ∀ q ∈ inputs, 0 < q.1 ∧ 0 ≤ q.2) {s s' : GA} (hs : Sound p s) (h : run p inputs s = .ok s') :
    Sound p s' := by
  induction inputs generalizing s with
  | nil => injection h with h; exact h ▸ hs
  | cons q rest ih =>
    obtain ⟨dt, i⟩ := q
    obtain ⟨hdt, hi⟩ : 0 < dt ∧ 0 ≤ i := hq (dt, i) (by simp)
    unfold run at h
    cases hb : step p dt i s with
    | error e => rw [hb] at h; simp [bind, Except.bind] at h
    | ok u =>
      rw [hb] at h
      exact ih (fun q hq' => hq q (by simp [hq'])) (C139_sound hp hdt hi hs hb) h

/-- **C139 (a run completes).** Whatever the weather: a run from a fresh element can only stop at a step in
which the water infiltrated so far plus the water on offer reaches `10^7` metres. -/
theorem C139_run {p : Soil} (hp : p.Physical) (inputs : List (ℝ × ℝ))
    (hq : ∀ q ∈ inputs, 0 < q.1 ∧ 0 ≤ q.2) :
    (∃ s, run p inputs (initial p) = .ok s) ∨
    ∃ (before after : List (ℝ × ℝ)) (dt i : ℝ) (s : GA), inputs = before ++ (dt, i) :: after ∧
      run p before (initial p) = .ok s ∧ 10 ^ 7 ≤ s.F + (i * dt + s.d) := by
  have key : ∀ (inputs : List (ℝ × ℝ)) (s : GA), (∀ q ∈ inputs, 0 < q.1 ∧ 0 ≤ q.2) → Sound p s →
      (∃ s', run p inputs s = .ok s') ∨
      ∃ (before after : List (ℝ × ℝ)) (dt i : ℝ) (s' : GA), inputs = before ++ (dt, i) :: after ∧
        run p before s = .ok s' ∧ 10 ^ 7 ≤ s'.F + (i * dt + s'.d) := by
    intro inputs
    induction inputs with
    | nil => intro s _ _; exact Or.inl ⟨s, rfl⟩
    | cons q rest ih =>
      intro s hq hs
      obtain ⟨dt, i⟩ := q
      obtain ⟨hdt, hi⟩ : 0 < dt ∧ 0 ≤ i := hq (dt, i) (by simp)
      by_cases hbig : s.F + (i * dt + s.d) < 10 ^ 7
      · obtain ⟨u, hu⟩ := C139_step hp hdt hi hs hbig
        rcases ih u (fun q hq' => hq q (by simp [hq'])) (C139_sound hp hdt hi hs hu) with
          ⟨s', h⟩ | ⟨b, a, dt', i', s', h1, h2, h3⟩
        · left; exact ⟨s', by simp only [run, hu, bind, Except.bind]; exact h⟩
        · right
          refine ⟨(dt, i) :: b, a, dt', i', s', by rw [h1]; rfl, ?_, h3⟩
          simp only [run, hu, bind, Except.bind]; exact h2
      · right
        exact ⟨[], rest, dt, i, s, rfl, rfl, not_lt.mp hbig⟩
  exact key inputs (initial p) hq (sound_initial hp)

/-- What a step can add to the infiltrated and to the ponded water. -/
theorem step_growth {p : Soil} (hp : p.Physical) {dt i : ℝ} (hdt : 0 < dt) (hi : 0 ≤ i) {s s' : GA}
    (hs : InRange p s) (h : step p dt i s = .ok s') :
    s'.F ≤ max s.F 0 + (i * dt + s.d) ∧ s'.d ≤ s.d + (i + 1.48e-8 / dt) := by
  constructor
  · by_cases hw : s.sat = true ∨ i + s.d / dt ≠ 0
    · rw [C36_cumulative hp hdt hw h]
      have h1 := mul_le_mul_of_nonneg_left (C36_supply hp hdt hs h) hdt.le
      have e : dt * (i + s.d / dt) = i * dt + s.d := by field_simp
      rw [e] at h1
      linarith [le_max_left s.F 0]
    · push Not at hw
      obtain ⟨hsat, h0⟩ := hw
      have hx : 0 ≤ i * dt + s.d := add_nonneg (mul_nonneg hi hdt.le) hs.d_lo
      obtain ⟨u, hb, rfl⟩ := step_ok h
      show u.F ≤ _
      rw [h0] at hb
      rcases infiltrate_ok hp.Ks hb with ⟨h, -⟩ | ⟨-, -, rfl⟩ | ⟨-, h, -⟩
      · exact absurd h (by simpa using hsat)
      · have hpos : 0 ≤ p.kr * p.thmax * dt * p.Lu := by
          have := hp.kr; have := hp.thmax; have := hp.Lu; positivity
        simp only [if_true, case2, case1]
        rw [zero_mul, add_zero]
        split_ifs
        · linarith [le_max_right s.F 0]
        · linarith [le_max_left s.F 0]
      · exact absurd h (not_lt.mpr hp.Ks.le)
  · have h1 := C36_lower hp hdt hi hs h
    rw [(surface_formula hp h).1]
    refine max_le (by linarith) ?_
    have : 0 ≤ 1.48e-8 / dt := div_nonneg (by norm_num) hdt.le
    linarith [hs.d_lo]

/-- **C139 (weather that cannot stop a run).** `n` steps between `δ` and `D` seconds with rain up to `I`:
the run completes if `n (I D + n (I + 1.48e-8 / δ)) < 10^7`. -/
theorem C139_weather {p : Soil} (hp : p.Physical) {δ D I : ℝ} (hδ : 0 < δ) (hI : 0 ≤ I)
    (inputs : List (ℝ × ℝ)) (hq : ∀ q ∈ inputs, δ ≤ q.1 ∧ q.1 ≤ D ∧ 0 ≤ q.2 ∧ q.2 ≤ I)
    (hbig : inputs.length * (I * D + inputs.length * (I + 1.48e-8 / δ)) < 10 ^ 7) :
    ∃ s, run p inputs (initial p) = .ok s := by
  set R := I + 1.48e-8 / δ with hR
  have hR0 : 0 ≤ R := by rw [hR]; have : 0 ≤ 1.48e-8 / δ := div_nonneg (by norm_num) hδ.le
                         linarith
  set n : ℝ := (inputs.length : ℝ) with hn
  by_cases hemp : inputs = []
  · subst hemp; exact ⟨_, rfl⟩
  have hD : 0 ≤ D := by
    obtain ⟨q, hmem⟩ := List.exists_mem_of_ne_nil inputs hemp
    obtain ⟨h1, h2, -⟩ := hq q hmem
    linarith
  have hn0 : 0 ≤ n := by rw [hn]; positivity
  have hID : 0 ≤ I * D + n * R := add_nonneg (mul_nonneg hI hD) (mul_nonneg hn0 hR0)
  have key : ∀ (inputs : List (ℝ × ℝ)) (k : ℝ) (s : GA), 0 ≤ k → k + inputs.length ≤ n →
      (∀ q ∈ inputs, δ ≤ q.1 ∧ q.1 ≤ D ∧ 0 ≤ q.2 ∧ q.2 ≤ I) → Sound p s → s.d ≤ k * R →
      s.F ≤ k * (I * D + n * R) → ∃ s', run p inputs s = .ok s' := by
    intro inputs
    induction inputs with
    | nil => intro k s _ _ _ _ _ _; exact ⟨s, rfl⟩
    | cons q rest ih =>
      intro k s hk hkn hq hs hd hF
      obtain ⟨dt, i⟩ := q
      obtain ⟨h1, h2, hi, h4⟩ : δ ≤ dt ∧ dt ≤ D ∧ 0 ≤ i ∧ i ≤ I := hq (dt, i) (by simp)
      have hdt : 0 < dt := hδ.trans_le h1
      simp only [List.length_cons] at hkn
      push_cast at hkn
      have hl : (0 : ℝ) ≤ rest.length := by positivity
      have hidt : i * dt ≤ I * D := mul_le_mul h4 h2 hdt.le hI
      have hdn : s.d ≤ n * R := hd.trans (mul_le_mul_of_nonneg_right (by linarith) hR0)
      have hFk : s.F + (i * dt + s.d) ≤ (k + 1) * (I * D + n * R) := by linarith
      have hk1 : (k + 1) * (I * D + n * R) ≤ n * (I * D + n * R) :=
        mul_le_mul_of_nonneg_right (by linarith) hID
      obtain ⟨u, hu⟩ := C139_step hp hdt hi hs (by linarith)
      obtain ⟨g1, g2⟩ := step_growth hp hdt hi hs.range hu
      have hmax : max s.F 0 ≤ k * (I * D + n * R) := max_le hF (mul_nonneg hk hID)
      obtain ⟨s', h'⟩ := ih (k + 1) u (by linarith) (by linarith) (fun q hq' => hq q (by simp [hq']))
        (C139_sound hp hdt hi hs hu)
        (by
          have : 1.48e-8 / dt ≤ 1.48e-8 / δ := div_le_div_of_nonneg_left (by norm_num) hδ h1
          rw [add_mul, one_mul, hR]; rw [hR] at hd; linarith)
        (by rw [add_mul, one_mul]; linarith)
      exact ⟨s', by simp only [run, hu, bind, Except.bind]; exact h'⟩
  refine key inputs 0 (initial p) le_rfl (by rw [zero_add]) hq (sound_initial hp) ?_ ?_
  · rw [zero_mul]; exact le_rfl
  · rw [zero_mul]; exact le_rfl

/-- A day of cloudbursts of up to 0.1 mm per second in one-minute steps completes on every soil. -/
example {p : Soil} (hp : p.Physical) (rain : List ℝ) (hlen : rain.length = 1440)
    (hr : ∀ i ∈ rain, 0 ≤ i ∧ i ≤ 1e-4) : ∃ s, run p (rain.map (fun i => (60, i))) (initial p) = .ok s := by
  refine C139_weather hp (δ := 60) (D := 60) (I := 1e-4) (by norm_num) (by norm_num) _ ?_ ?_
  · intro q hq
    obtain ⟨i, hi, rfl⟩ := List.mem_map.mp hq
    exact ⟨le_rfl, le_rfl, hr i hi⟩
  · rw [List.length_map, hlen]; norm_num

/-! ### The class used without numba -/

/-- `scipy.optimize.newton` from beyond the root: the distance halves. -/
theorem scipyLoop_returns {p : Soil} (hp : p.Physical) {thd F1 dt r : ℝ} (hthd : 0 < thd) (hr : 0 < r)
    (h0 : gaF p thd F1 dt r = 0) (k : ℕ) :
    ∀ x, r < x → x - r < 2 ^ k * 1.48e-8 → ∃ q, scipyLoop p thd F1 dt (k + 1) x = .ok q := by
  have ha : 0 < p.psi * thd := mul_pos hp.psi hthd
  have one : ∀ x, r < x → gaD p thd x < 0 ∧ gaF p thd F1 dt x < 0 ∧
      r < x - gaF p thd F1 dt x / gaD p thd x ∧ x - r ≤ 2 * (gaF p thd F1 dt x / gaD p thd x) := by
    intro x hx
    have hc := gaF_concave (F1 := F1) (dt := dt) hp hthd x
    refine ⟨hc.falls x (hr.trans hx) le_rfl, ?_, hc.beyond (hr.trans hx) le_rfl hr.le hx.le h0 hx.ne',
      hc.half hr.le hx le_rfl h0⟩
    have := hc.anti hr.le hx le_rfl
    rwa [h0] at this
  induction k with
  | zero =>
    intro x hx he
    obtain ⟨hD, hf, h1, h2⟩ := one x hx
    have hq := div_pos_of_neg_of_neg hf hD
    simp only [scipyLoop]
    rw [if_neg (by rw [abs_of_pos hp.psi]; linarith), if_neg hf.ne, if_neg hD.ne, if_pos]
    · exact ⟨_, rfl⟩
    · rw [sub_sub_cancel_left, abs_neg, abs_of_pos hq]; norm_num at he ⊢; linarith
  | succ k ih =>
    intro x hx he
    obtain ⟨hD, hf, h1, h2⟩ := one x hx
    rw [scipyLoop]
    rw [if_neg (by rw [abs_of_pos hp.psi]; linarith), if_neg hf.ne, if_neg hD.ne]
    simp only
    split_ifs
    · exact ⟨_, rfl⟩
    · refine ih _ h1 ?_
      rw [pow_succ] at he
      linarith

/-- The second iterate has left the effect of a small slope behind: it is beyond the water on offer by no
more than a logarithm. -/
theorem newton_log {p : Soil} (hp : p.Physical) {thd F1 dt x : ℝ} (hthd : 0 < thd) (hF : 0 ≤ F1) (hx : 0 < x)
    (hneg : gaF p thd F1 dt x ≤ 0) :
    x - gaF p thd F1 dt x / gaD p thd x ≤
      p.Ks * dt + F1 + p.psi * thd * Real.log ((x + p.psi * thd) / (F1 + p.psi * thd)) := by
  have ha : 0 < p.psi * thd := mul_pos hp.psi hthd
  have hD : gaD p thd x < 0 := by rw [gaD_eq hp hthd hx.le]; exact neg_neg_of_pos (by positivity)
  have hD1 : -1 ≤ gaD p thd x := by
    rw [gaD_eq hp hthd hx.le, neg_le_neg_iff, div_le_one (by linarith)]; linarith
  have h1 : -gaF p thd F1 dt x ≤ gaF p thd F1 dt x / gaD p thd x := by
    rw [le_div_iff_of_neg hD]; nlinarith
  have e : gaF p thd F1 dt x = p.Ks * dt + F1 +
      p.psi * thd * Real.log ((x + p.psi * thd) / (F1 + p.psi * thd)) - x := by
    rw [Real.log_div (by linarith) (by linarith)]
    unfold gaF
    rw [abs_of_pos hp.psi]; ring
  linarith

theorem log_huge {M x : ℝ} (hx : 1 / 10 ^ 200 ≤ x) (hM0 : 0 ≤ M) (hM : M ≤ 10 ^ 6) :
    Real.log (1 + M / x) ≤ 621 := by
  have hx0 : 0 < x := lt_of_lt_of_le (by positivity) hx
  have h1 : M / x ≤ 10 ^ 206 := by
    rw [div_le_iff₀ hx0]
    calc M ≤ 10 ^ 6 := hM
      _ = 10 ^ 206 * (1 / 10 ^ 200) := by norm_num
      _ ≤ 10 ^ 206 * x := mul_le_mul_of_nonneg_left hx (by positivity)
  have h2 : 1 + M / x ≤ 10 ^ 207 := by
    have : (1 : ℝ) + 10 ^ 206 ≤ 10 ^ 207 := by norm_num
    linarith
  have h3 : Real.log (1 + M / x) ≤ Real.log (10 ^ 207) :=
    Real.log_le_log (by positivity) h2
  have h4 : Real.log 10 ≤ 3 := by
    rw [Real.log_le_iff_le_exp (by norm_num)]
    have he : (2.7 : ℝ) < Real.exp 1 := lt_trans (by norm_num) Real.exp_one_gt_d9
    have e3 : Real.exp 3 = Real.exp 1 ^ 3 := by rw [← Real.exp_nat_mul]; norm_num
    rw [e3]
    have : (2.7 : ℝ) ^ 3 ≤ Real.exp 1 ^ 3 := pow_le_pow_left₀ (by norm_num) he.le 3
    refine le_trans ?_ this
    norm_num
  rw [Real.log_pow] at h3
  push_cast at h3
  linarith

/-- `scipy.optimize.newton` started at a positive cumulative infiltration. -/
theorem scipyNewton_returns {p : Soil} (hp : p.Physical) {thd x0 F1 dt : ℝ} (hthd : 0 < thd)
    (hx0 : 1 / 10 ^ 200 ≤ x0) (hxF : x0 ≤ F1) (hdt : 0 ≤ dt) (ha : p.psi * thd ≤ 1000)
    (hM : p.Ks * dt + F1 ≤ 10 ^ 6) : ∃ q, scipyNewton p thd x0 F1 dt = .ok q := by
  have hx : 0 < x0 := lt_of_lt_of_le (by positivity) hx0
  have hF : 0 < F1 := hx.trans_le hxF
  have ha0 : 0 < p.psi * thd := mul_pos hp.psi hthd
  have hKdt : 0 ≤ p.Ks * dt := mul_nonneg hp.Ks.le hdt
  obtain ⟨r, hFr, h0⟩ := gaF_root hp hthd hF.le hdt
  have hr : 0 < r := hF.trans_le hFr
  have hxr : x0 ≤ r := hxF.trans hFr
  unfold scipyNewton
  rw [if_pos (by rw [abs_of_pos hp.psi]; linarith), show (50 : ℕ) = 48 + 1 + 1 from rfl, scipyLoop,
    if_neg (by rw [abs_of_pos hp.psi]; linarith)]
  by_cases hz : gaF p thd F1 dt x0 = 0
  · rw [if_pos hz]; exact ⟨_, rfl⟩
  have hc := gaF_concave (F1 := F1) (dt := dt) hp hthd r
  have hD : gaD p thd x0 < 0 := hc.falls x0 hx hxr
  have hne : x0 ≠ r := by rintro rfl; exact hz h0
  rw [if_neg hz, if_neg hD.ne]
  simp only
  split_ifs
  · exact ⟨_, rfl⟩
  -- the first step overshoots
  have hb1 := hc.beyond hx hxr hr.le le_rfl h0 hne
  have hle1 : x0 - gaF p thd F1 dt x0 / gaD p thd x0 + p.psi * thd ≤
      (x0 + p.psi * thd) * (1 + (p.Ks * dt + F1) / x0) := by
    have hf : gaF p thd F1 dt x0 ≤ p.Ks * dt + F1 := by
      have hl : Real.log (x0 + p.psi * thd) ≤ Real.log (F1 + p.psi * thd) :=
        Real.log_le_log (by linarith) (by linarith)
      have := mul_le_mul_of_nonneg_left hl ha0.le
      unfold gaF
      rw [abs_of_pos hp.psi]; linarith
    rw [gaD_eq hp hthd hx.le, div_neg, sub_neg_eq_add, div_div_eq_mul_div]
    have h1 : gaF p thd F1 dt x0 * (p.psi * thd + x0) / x0 ≤ (p.Ks * dt + F1) * (p.psi * thd + x0) / x0 := by
      rw [div_le_div_iff_of_pos_right hx]
      exact mul_le_mul_of_nonneg_right hf (by linarith)
    have e : (x0 + p.psi * thd) * (1 + (p.Ks * dt + F1) / x0) =
        x0 + (p.Ks * dt + F1) * (p.psi * thd + x0) / x0 + p.psi * thd := by field_simp; ring
    rw [e]; linarith
  generalize x0 - gaF p thd F1 dt x0 / gaD p thd x0 = x1 at hb1 hle1
  have hc1 := gaF_concave (F1 := F1) (dt := dt) hp hthd x1
  have hx1 : 0 < x1 := hr.trans hb1
  have hD1 : gaD p thd x1 < 0 := hc1.falls x1 hx1 le_rfl
  have hf1 : gaF p thd F1 dt x1 < 0 := by
    have := hc1.anti hr.le hb1 le_rfl; rwa [h0] at this
  rw [scipyLoop, if_neg (by rw [abs_of_pos hp.psi]; linarith), if_neg hf1.ne, if_neg hD1.ne]
  simp only
  split_ifs
  · exact ⟨_, rfl⟩
  have hb2 := hc1.beyond hx1 le_rfl hr.le hb1.le h0 hb1.ne'
  have hl2 := newton_log hp hthd hF.le hx1 hf1.le
  have hlog : Real.log ((x1 + p.psi * thd) / (F1 + p.psi * thd)) ≤ 621 := by
    refine le_trans (Real.log_le_log (div_pos (by linarith) (by linarith)) ?_)
      (log_huge hx0 (by linarith) hM)
    rw [div_le_iff₀ (by linarith)]
    refine hle1.trans ?_
    rw [mul_comm]
    have : 0 ≤ (p.Ks * dt + F1) / x0 := by positivity
    exact mul_le_mul_of_nonneg_left (by linarith) (by linarith)
  have h3 : p.psi * thd * Real.log ((x1 + p.psi * thd) / (F1 + p.psi * thd)) ≤ 1000 * 621 := by
    rcases le_total 0 (Real.log ((x1 + p.psi * thd) / (F1 + p.psi * thd))) with h | h
    · exact mul_le_mul ha hlog h (by norm_num)
    · have := mul_nonpos_of_nonneg_of_nonpos ha0.le h
      linarith
  refine scipyLoop_returns hp hthd hr h0 47 _ hb2 ?_
  norm_num
  linarith

/-- **C103 (the class without numba completes).** From any state with a cumulative infiltration of at least
`10^-200` metres, with less than a thousand kilometres of water about:
the step raises nothing. (What is missing is the case of nothing infiltrated yet, in which it does raise,
`C103_fresh_raises`.) -/
theorem C103_completes_partial {p : Soil} (hp : p.Physical) {dt i : ℝ} (hdt : 0 < dt) (hi : 0 ≤ i) {s : GA}
    (hs : InRange p s) (hF : 1 / 10 ^ 200 ≤ s.F) (ha : p.psi * s.thd ≤ 1000)
    (hbig : p.Ks * dt + s.F + (i * dt + s.d) ≤ 10 ^ 6) : ∃ s', stepB p dt i s = .ok s' := by
  have hF0 : 0 < s.F := lt_of_lt_of_le (by positivity) hF
  have hia : 0 ≤ i + s.d / dt := add_nonneg hi (div_nonneg hs.d_lo hdt.le)
  have hprod : (i + s.d / dt) * dt = i * dt + s.d := by field_simp
  rw [← hprod] at hbig
  have hthd := hs.thd_lo
  have hinf : ∃ u, infiltrateB p dt (i + s.d / dt) { s with T := s.T - dt } = .ok u := by
    generalize i + s.d / dt = ia at hia hbig
    have hiadt : 0 ≤ ia * dt := mul_nonneg hia hdt.le
    have hsatc : ∀ (T : ℝ) (b : Bool), ∃ u, saturatedCaseB p dt ia { s with T := T, sat := b } = .ok u := by
      intro T b
      obtain ⟨q, hq⟩ := scipyNewton_returns hp hthd hF le_rfl hdt.le ha (by linarith)
      unfold saturatedCaseB
      simp only [hq, bind, Except.bind, pure, Except.pure]
      exact ⟨_, rfl⟩
    simp only [infiltrateB]
    by_cases hsat : s.sat = true
    · rw [if_pos hsat]
      exact hsatc _ _
    · rw [if_neg hsat]
      by_cases hK : ia ≤ p.Ks
      · rw [if_neg (not_lt.mpr hK)]
        exact ⟨_, rfl⟩
      · push Not at hK
        have hia0 : 0 < ia := hp.Ks.trans hK
        rw [if_pos hK, if_neg (not_le.mpr hK), if_neg hia0.ne']
        simp only [case3B]
        have eF : p.Ks * p.psi * s.thd / (ia - p.Ks) = Fsat p ia s.thd := rfl
        rw [eF]
        split_ifs with c1 c2
        · exact hsatc _ _
        · exact ⟨_, rfl⟩
        · push Not at c1 c2
          have hsub : 0 ≤ dt - (Fsat p ia s.thd - s.F) / ia := by
            rw [sub_nonneg, div_le_iff₀ hia0]; linarith
          have hsub2 : dt - (Fsat p ia s.thd - s.F) / ia ≤ dt := by
            have : 0 ≤ (Fsat p ia s.thd - s.F) / ia := div_nonneg (by linarith) hia
            linarith
          have := mul_le_mul_of_nonneg_left hsub2 hp.Ks.le
          obtain ⟨q, hq⟩ := scipyNewton_returns hp hthd hF c1.le hsub ha (by linarith)
          simp only [hq, bind, Except.bind, pure, Except.pure]
          exact ⟨_, rfl⟩
  obtain ⟨u, hu⟩ := hinf
  refine ⟨surface p dt i u, ?_⟩
  simp only [stepB, available, hu, bind, Except.bind, pure, Except.pure]

/-- **C103 (with and without numba).** The same states: both classes complete the step, and their results
agree up to the tolerances of the two root finders over the slope of the equation. -/
theorem C103_both_partial {p : Soil} (hp : p.Physical) {dt i : ℝ} (hdt : 0 < dt) (hi : 0 ≤ i) {s : GA}
    (hs : InRange p s) (hF : 1 / 10 ^ 200 ≤ s.F) (ha : p.psi * s.thd ≤ 1000)
    (hbig : p.Ks * dt + s.F + (i * dt + s.d) ≤ 10 ^ 6) :
    ∃ u v, step p dt i s = .ok u ∧ stepB p dt i s = .ok v ∧ Close p dt (spread p s.thd s.F) u v := by
  have hF0 : 0 < s.F := lt_of_lt_of_le (by positivity) hF
  have hK : 0 ≤ p.Ks * dt := mul_nonneg hp.Ks.le hdt.le
  have h7 : s.F + (i * dt + s.d) < 10 ^ 7 := by
    have : (10 : ℝ) ^ 6 < 10 ^ 7 := by norm_num
    linarith
  obtain ⟨u, hu⟩ := C139_step hp hdt hi ⟨hs, fun _ => hF0.le⟩ h7
  obtain ⟨v, hv⟩ := C103_completes_partial hp hdt hi hs hF ha hbig
  exact ⟨u, v, hu, hv, C103_same_solution_partial hp hdt hi hs hF0 h7 hu hv⟩

/-- A wet, saturated element in a minute of rain. -/
example : ∃ (p : Soil) (s u v : GA), p.Physical ∧ s.sat = true ∧ step p 60 1e-5 s = .ok u ∧
    stepB p 60 1e-5 s = .ok v ∧ Close p 60 (spread p s.thd s.F) u v := by
  let p : Soil := ⟨0.1, 1e-6, 0.4, 1⟩
  have hp : p.Physical := ⟨by norm_num [p], by norm_num [p], by norm_num [p], by norm_num [p]⟩
  let s : GA := { initial p with F := 0.01, sat := true }
  obtain ⟨u, v, h1, h2, h3⟩ := C103_both_partial hp (dt := 60) (i := 1e-5) (s := s) (by norm_num) (by norm_num)
    ⟨by norm_num [s, p, initial], by norm_num [s, p, initial], by norm_num [s, p, initial],
      by norm_num [s, p, initial], by norm_num [s, p, initial], by norm_num [s, p, initial]⟩
    (by norm_num [s]) (by norm_num [s, p, initial]) (by norm_num [s, p, initial])
  exact ⟨p, s, u, v, hp, rfl, h1, h2, h3⟩

end Pipedream.Infiltration
