import Verif.InfiltrationModel
import Verif.RootProps

/-!
# C35, C36, C37, C66: Green–Ampt infiltration
-/

namespace Pipedream.Infiltration

open Pipedream.Link Pipedream.Root

/-- Physical parameters. -/
structure Soil.Physical (p : Soil) : Prop where
  psi : 0 < p.psi
  Ks : 0 < p.Ks
  thmax : 0 < p.thmax
  A_s : 0 ≤ p.A_s

theorem Soil.Physical.root {p : Soil} (h : p.Physical) : 0 < p.root :=
  Real.sqrt_pos.mpr (by have := h.Ks; positivity)

theorem Soil.Physical.Lu {p : Soil} (h : p.Physical) : 0 < p.Lu := by
  have := h.root; unfold Soil.Lu; positivity

theorem Soil.Physical.kr {p : Soil} (h : p.Physical) : 0 < p.kr := by
  have := h.root; unfold Soil.kr; positivity

theorem Soil.Physical.Tr {p : Soil} (h : p.Physical) : 0 < p.Tr := by
  have := h.root; unfold Soil.Tr; positivity

/-- The physical ranges claimed by C35. -/
structure InRange (p : Soil) (s : GA) : Prop where
  thdu_lo : 0 ≤ s.thdu
  thdu_hi : s.thdu ≤ p.thmax
  thd_lo : 0 < s.thd
  thd_hi : s.thd ≤ p.thmax
  d_lo : 0 ≤ s.d
  Q_lo : 0 ≤ s.Q

theorem clampTh_range {p : Soil} (h : p.Physical) (v : ℝ) : 0 ≤ clampTh p v ∧ clampTh p v ≤ p.thmax :=
  ⟨le_min (le_max_right _ _) h.thmax.le, min_le_right _ _⟩

theorem runNewton_ok {p : Soil} {thd ia x0 F1 dt r : ℝ} (h : runNewton p thd ia x0 F1 dt = .ok r) :
    0 < F1 + |p.psi| * thd ∧
    boundedNewtonRaphson (gaF p thd F1 dt) (gaD p thd) x0 0 (F1 + ia * dt) 50 1.48e-8 = .ok r := by
  unfold runNewton at h
  split_ifs at h with hc
  refine ⟨hc, ?_⟩
  cases hb : boundedNewtonRaphson (gaF p thd F1 dt) (gaD p thd) x0 0 (F1 + ia * dt) 50 1.48e-8 with
  | ok q => rw [hb] at h; injection h with h; rw [h]
  | error e => rw [hb] at h; cases h

/-- What a saturated case does to the fields, when it returns. -/
theorem saturatedCase_ok {p : Soil} {dt ia : ℝ} {s s' : GA} (h : saturatedCase p dt ia s = .ok s') :
    ∃ F2, runNewton p s.thd ia s.F s.F dt = .ok F2 ∧
      s' = { s with
        T := p.Tr
        F := s.F + min (F2 - s.F) (ia * dt)
        thdu := clampTh p (s.thdu - min (F2 - s.F) (ia * dt) / p.Lu)
        f := min (F2 - s.F) (ia * dt) / dt
        sat := if F2 - s.F > ia * dt then false else s.sat } := by
  unfold saturatedCase at h
  cases hb : runNewton p s.thd ia s.F s.F dt with
  | error e => rw [hb] at h; simp [bind, Except.bind] at h
  | ok F2 =>
    rw [hb] at h
    simp only [bind, Except.bind, pure, Except.pure, Except.ok.injEq] at h
    refine ⟨F2, rfl, ?_⟩
    have e : (if F2 - s.F > ia * dt then ia * dt else F2 - s.F) = min (F2 - s.F) (ia * dt) := by
      split_ifs with hc
      · rw [min_eq_right hc.le]
      · rw [min_eq_left (not_lt.mp hc)]
    rw [e] at h
    rw [← h]

/-- Volume needed to saturate the surface layer. -/
noncomputable def Fsat (p : Soil) (ia thd : ℝ) : ℝ := p.Ks * p.psi * thd / (ia - p.Ks)

/-- The three ways in which case 3 returns. -/
theorem case3_ok {p : Soil} {dt ia : ℝ} {s s' : GA} (h : case3 p dt ia s = .ok s') :
    (Fsat p ia s.thd ≤ s.F ∧ saturatedCase p dt ia { s with T := p.Tr, sat := true } = .ok s') ∨
    (s.F < Fsat p ia s.thd ∧ s.F + ia * dt < Fsat p ia s.thd ∧ s' = { s with
      T := p.Tr
      f := ia
      F := s.F + ia * dt
      thdu := clampTh p (s.thdu - ia * dt / p.Lu) }) ∨
    (s.F < Fsat p ia s.thd ∧ Fsat p ia s.thd ≤ s.F + ia * dt ∧ ∃ F2,
      runNewton p s.thd ia s.F (Fsat p ia s.thd) (dt - (Fsat p ia s.thd - s.F) / ia) = .ok F2 ∧
      s' = { s with
        T := p.Tr
        F := F2
        thdu := clampTh p (s.thdu - (F2 - s.F) / p.Lu)
        f := (F2 - s.F) / dt }) := by
  simp only [case3] at h
  have eF : p.Ks * p.psi * s.thd / (ia - p.Ks) = Fsat p ia s.thd := rfl
  simp only [eF] at h
  generalize Fsat p ia s.thd = Fs at *
  split_ifs at h with c1 c2
  · exact Or.inl ⟨c1, h⟩
  · injection h with h
    exact Or.inr (Or.inl ⟨not_le.mp c1, c2, h.symm⟩)
  · refine Or.inr (Or.inr ⟨not_le.mp c1, not_lt.mp c2, ?_⟩)
    cases hb : runNewton p s.thd ia s.F Fs (dt - (Fs - s.F) / ia) with
    | error e => rw [hb] at h; simp [bind, Except.bind] at h
    | ok F2 =>
      rw [hb] at h
      simp only [bind, Except.bind, pure, Except.pure, Except.ok.injEq] at h
      exact ⟨F2, rfl, h.symm⟩

/-- The three ways in which the case distinction returns (with positive conductivity an element with
more rainfall than conductivity has rainfall, so case 1 does not apply to it). -/
theorem infiltrate_ok {p : Soil} (hK : 0 < p.Ks) {dt ia : ℝ} {s s' : GA}
    (h : infiltrate p dt ia s = .ok s') :
    (s.sat = true ∧ saturatedCase p dt ia s = .ok s') ∨
    (s.sat = false ∧ ia ≤ p.Ks ∧ s' = case2 p dt ia (if ia = 0 then case1 p dt s else s)) ∨
    (s.sat = false ∧ p.Ks < ia ∧ case3 p dt ia s = .ok s') := by
  simp only [infiltrate] at h
  by_cases hs : s.sat = true
  · rw [if_pos hs] at h; exact Or.inl ⟨hs, h⟩
  · rw [if_neg hs] at h
    have hs' : s.sat = false := by simpa using hs
    by_cases hc : ia ≤ p.Ks
    · rw [if_pos hc, if_neg (not_lt.mpr hc)] at h
      injection h with h
      exact Or.inr (Or.inl ⟨hs', hc, h.symm⟩)
    · push Not at hc
      rw [if_pos hc, if_neg (not_le.mpr hc), if_neg (hK.trans hc).ne'] at h
      exact Or.inr (Or.inr ⟨hs', hc, h⟩)

theorem step_ok {p : Soil} {dt i : ℝ} {s s' : GA} (h : step p dt i s = .ok s') :
    ∃ u, infiltrate p dt (i + s.d / dt) { s with T := s.T - dt } = .ok u ∧ s' = surface p dt i u := by
  simp only [step, available] at h
  cases hb : infiltrate p dt (i + s.d / dt) { s with T := s.T - dt } with
  | error e => rw [hb] at h; simp [bind, Except.bind] at h
  | ok u =>
    rw [hb] at h
    simp only [bind, Except.bind, pure, Except.pure, Except.ok.injEq] at h
    exact ⟨u, rfl, h.symm⟩

/-- Deficits stay in range through the case distinction. -/
theorem infiltrate_range {p : Soil} (hp : p.Physical) {dt ia : ℝ} (hdt : 0 < dt) {s s' : GA}
    (hs : InRange p s) (h : infiltrate p dt ia s = .ok s') : InRange p s' := by
  have cl := clampTh_range hp
  rcases infiltrate_ok hp.Ks h with ⟨-, h⟩ | ⟨-, -, rfl⟩ | ⟨-, -, h⟩
  · obtain ⟨F2, -, rfl⟩ := saturatedCase_ok h
    exact ⟨(cl _).1, (cl _).2, hs.thd_lo, hs.thd_hi, hs.d_lo, hs.Q_lo⟩
  · by_cases h0 : ia = 0
    · rw [if_pos h0]
      have hpos : 0 < clampTh p (s.thdu + p.kr * p.thmax * dt) := by
        have h1 := hp.kr
        have h2 := hp.thmax
        have : 0 < s.thdu + p.kr * p.thmax * dt := by
          have := hs.thdu_lo; positivity
        exact lt_min (lt_max_of_lt_left this) h2
      refine ⟨(cl _).1, (cl _).2, ?_, ?_, hs.d_lo, hs.Q_lo⟩
      · simp only [case2, case1]
        split_ifs
        · exact hpos
        · exact hs.thd_lo
      · simp only [case2, case1]
        split_ifs
        · exact (cl _).2
        · exact hs.thd_hi
    · rw [if_neg h0]
      exact ⟨(cl _).1, (cl _).2, hs.thd_lo, hs.thd_hi, hs.d_lo, hs.Q_lo⟩
  · rcases case3_ok h with ⟨-, h⟩ | ⟨-, -, rfl⟩ | ⟨-, -, F2, -, rfl⟩
    · obtain ⟨F2, -, rfl⟩ := saturatedCase_ok h
      exact ⟨(cl _).1, (cl _).2, hs.thd_lo, hs.thd_hi, hs.d_lo, hs.Q_lo⟩
    · exact ⟨(cl _).1, (cl _).2, hs.thd_lo, hs.thd_hi, hs.d_lo, hs.Q_lo⟩
    · exact ⟨(cl _).1, (cl _).2, hs.thd_lo, hs.thd_hi, hs.d_lo, hs.Q_lo⟩

/-- **C35 (one step).** -/
theorem C35_step {p : Soil} (hp : p.Physical) {dt i : ℝ} (hdt : 0 < dt) {s s' : GA}
    (hs : InRange p s) (h : step p dt i s = .ok s') : InRange p s' := by
  obtain ⟨u, hb, rfl⟩ := step_ok h
  have hu := infiltrate_range hp hdt
    (s := { s with T := s.T - dt })
    ⟨hs.thdu_lo, hs.thdu_hi, hs.thd_lo, hs.thd_hi, hs.d_lo, hs.Q_lo⟩ hb
  exact ⟨hu.thdu_lo, hu.thdu_hi, hu.thd_lo, hu.thd_hi, le_max_right _ _,
    mul_nonneg (le_max_right _ _) hp.A_s⟩

/-- **C35.** After any completed sequence of steps of any positive sizes with any rainfall, starting
from a freshly constructed element: both moisture deficits lie between 0 and the maximum, ponded depth
and runoff are non-negative. -/
theorem C35_run {p : Soil} (hp : p.Physical) (inputs : List (ℝ × ℝ)) (hdt : ∀ q ∈ inputs, 0 < q.1)
    {s' : GA} (h : run p inputs (initial p) = .ok s') : InRange p s' := by
  have key : ∀ (inputs : List (ℝ × ℝ)) (s : GA), (∀ q ∈ inputs, 0 < q.1) → InRange p s →
      ∀ s', run p inputs s = .ok s' → InRange p s' := by
    intro inputs
    induction inputs with
    | nil => intro s _ hs s' h; injection h with h; rw [← h]; exact hs
    | cons q rest ih =>
      intro s hq hs s' h
      obtain ⟨dt, i⟩ := q
      unfold run at h
      cases hb : step p dt i s with
      | error e => rw [hb] at h; simp [bind, Except.bind] at h
      | ok u =>
        rw [hb] at h
        simp only [bind, Except.bind] at h
        exact ih u (fun q hq' => hq q (List.mem_cons_of_mem _ hq'))
          (C35_step hp (hq (dt, i) (by simp)) hs hb) s' h
  exact key inputs _ hdt
    ⟨hp.thmax.le, le_rfl, hp.thmax, le_rfl, le_rfl, le_rfl⟩ s' h

theorem inRange_initial {p : Soil} (hp : p.Physical) : InRange p (initial p) :=
  ⟨hp.thmax.le, le_rfl, hp.thmax, le_rfl, le_rfl, le_rfl⟩

/-- The bracket of the solver in the third unsaturated sub-case ends at everything that is available. -/
theorem sub_bracket {Fs F ia dt : ℝ} (hia : ia ≠ 0) :
    Fs + ia * (dt - (Fs - F) / ia) = F + ia * dt := by
  field_simp; ring

theorem Fsat_pos {p : Soil} (hp : p.Physical) {ia thd : ℝ} (hK : p.Ks < ia) (hthd : 0 < thd) :
    0 < Fsat p ia thd := by
  have h1 := hp.Ks
  have h2 := hp.psi
  have h4 : 0 < ia - p.Ks := by linarith
  unfold Fsat; positivity

/-- **C36 (supply limit).** In every completed step of positive size the infiltration rate is at most
the rainfall plus the ponded water supplied over the step. -/
theorem C36_supply {p : Soil} (hp : p.Physical) {dt i : ℝ} (hdt : 0 < dt) {s s' : GA}
    (hs : InRange p s) (h : step p dt i s = .ok s') : s'.f ≤ i + s.d / dt := by
  obtain ⟨u, hb, rfl⟩ := step_ok h
  show u.f ≤ _
  generalize i + s.d / dt = ia at hb
  have hsat : ∀ {v v' : GA}, saturatedCase p dt ia v = .ok v' → v'.f ≤ ia := by
    intro v v' hv
    obtain ⟨F2, -, rfl⟩ := saturatedCase_ok hv
    show min (F2 - v.F) (ia * dt) / dt ≤ ia
    rw [div_le_iff₀ hdt]; exact min_le_right _ _
  rcases infiltrate_ok hp.Ks hb with ⟨-, h⟩ | ⟨-, -, rfl⟩ | ⟨-, hK, h⟩
  · exact hsat h
  · exact le_rfl
  · rcases case3_ok h with ⟨-, h⟩ | ⟨-, -, rfl⟩ | ⟨-, c2, F2, hr, rfl⟩
    · exact hsat h
    · exact le_rfl
    · show (F2 - s.F) / dt ≤ ia
      have hin := C39_in_interval (runNewton_ok hr).2
      have hia : ia ≠ 0 := (hp.Ks.trans hK).ne'
      rw [sub_bracket hia] at hin
      have hge := (Fsat_pos hp hK hs.thd_lo).le.trans c2
      have := hin.2
      rw [max_eq_right hge] at this
      rw [div_le_iff₀ hdt]; linarith

/-- **C36 (accounting).** In every completed step with available rainfall, or on saturated soil, the
cumulative infiltration grows by exactly rate times step. -/
theorem C36_cumulative {p : Soil} (hp : p.Physical) {dt i : ℝ} (hdt : 0 < dt) {s s' : GA}
    (hw : s.sat = true ∨ i + s.d / dt ≠ 0) (h : step p dt i s = .ok s') :
    s'.F = s.F + dt * s'.f := by
  obtain ⟨u, hb, rfl⟩ := step_ok h
  show u.F = s.F + dt * u.f
  generalize i + s.d / dt = ia at hb hw
  have hsat : ∀ {v v' : GA}, saturatedCase p dt ia v = .ok v' → v'.F = v.F + dt * v'.f := by
    intro v v' hv
    obtain ⟨F2, -, rfl⟩ := saturatedCase_ok hv
    simp only
    field_simp
  rcases infiltrate_ok hp.Ks hb with ⟨-, h⟩ | ⟨hns, -, rfl⟩ | ⟨-, hK, h⟩
  · exact hsat h
  · have h0 : ia ≠ 0 := by
      rcases hw with h | h
      · simp [h] at hns
      · exact h
    rw [if_neg h0]
    simp only [case2]; ring
  · rcases case3_ok h with ⟨-, h⟩ | ⟨-, -, rfl⟩ | ⟨-, c2, F2, hr, rfl⟩
    · have := hsat h; exact this
    · simp only; ring
    · simp only; field_simp; ring

/-! ### The rate is not negative beyond the tolerance of the solver -/

theorem loop_lower {f df : ℝ → ℝ} {a b c atol : ℝ} (k : ℕ) {s : BState}
    (hs : Inv f df a b s) (hlb : c ≤ s.lb) (hneg : ∀ x, Hull a b x → f x < 0 → c ≤ x)
    (hnew : ∀ y, Hull a b y → df y ≠ 0 → Hull a b (y - f y / df y) → c ≤ y - f y / df y)
    (hat : 0 < atol) {r : ℝ} (h : boundedLoop f df atol k s = .ok r) : c - atol ≤ r := by
  induction k generalizing s with
  | zero => simp [boundedLoop] at h
  | succ k ih =>
    obtain ⟨dx, x, he, hx, hcase⟩ := advance_ok s
    have hx' := hull_trans hs.lb_in hs.ub_in hx
    simp only [boundedLoop, he, bind, Except.bind] at h
    split_ifs at h with hd
    · injection h with h
      subst h
      rcases hcase with ⟨h1, h2⟩ | ⟨h1, h2, h3⟩
      · rw [h2]; have := (abs_lt.mp hd).1; linarith
      · rw [hs.dfx_eq] at h1 h2
        rw [hs.fx_eq] at h2
        have := hnew s.x hs.x_in h1 (by rw [← h2, ← h3]; exact hx')
        rw [h3, h2]; linarith
    · refine ih (inv_tighten hs hx) ?_ h
      simp only [tighten]
      split_ifs with hf
      · exact hneg x hx' hf
      · exact hlb

/-- Green–Ampt residual: strictly decreasing on non-negative infiltration. -/
theorem gaF_anti {p : Soil} {thd F1 dt : ℝ} (hpsi : 0 < p.psi) (hthd : 0 < thd) {x y : ℝ} (hx : 0 ≤ x)
    (hxy : x < y) : gaF p thd F1 dt y < gaF p thd F1 dt x := by
  unfold gaF
  rw [abs_of_pos hpsi]
  set c := p.psi * thd with hc
  have hc0 : 0 < c := mul_pos hpsi hthd
  have h1 : 0 < x + c := by linarith
  have h2 : 0 < y + c := by linarith
  have hq : (y + c) / (x + c) ≠ 1 := by
    intro h; rw [div_eq_one_iff_eq h1.ne'] at h; linarith
  have hl := Real.log_lt_sub_one_of_pos (div_pos h2 h1) hq
  rw [Real.log_div h2.ne' h1.ne'] at hl
  have he : (y + c) / (x + c) - 1 = (y - x) / (x + c) := by field_simp; ring
  rw [he, lt_div_iff₀ h1] at hl
  by_contra hcon
  push Not at hcon
  have h3 : y - x ≤ c * (Real.log (y + c) - Real.log (x + c)) := by linarith
  have hL : 0 < Real.log (y + c) - Real.log (x + c) := by
    have := Real.log_lt_log h1 (by linarith : x + c < y + c); linarith
  nlinarith [mul_nonneg hL.le hx]

/-- The residual lies below its tangents. -/
theorem gaF_tangent {p : Soil} {thd F1 dt : ℝ} (hpsi : 0 < p.psi) (hthd : 0 < thd) {y r : ℝ}
    (hy : 0 ≤ y) (hr : 0 ≤ r) :
    gaF p thd F1 dt r ≤ gaF p thd F1 dt y + gaD p thd y * (r - y) := by
  unfold gaF gaD
  rw [abs_of_pos hpsi]
  set c := p.psi * thd with hc
  have hc0 : 0 < c := mul_pos hpsi hthd
  have h1 : 0 < y + c := by linarith
  have h2 : 0 < r + c := by linarith
  have hl := Real.log_le_sub_one_of_pos (div_pos h2 h1)
  rw [Real.log_div h2.ne' h1.ne'] at hl
  have he : (r + c) / (y + c) - 1 = (r - y) / (y + c) := by field_simp; ring
  rw [he] at hl
  have h3 := mul_le_mul_of_nonneg_left hl hc0.le
  have h4 : c * ((r - y) / (y + c)) = c / (c + y) * (r - y) := by
    rw [add_comm c y]; ring
  rw [h4] at h3
  linarith

theorem gaF_self (p : Soil) (thd F1 dt : ℝ) : gaF p thd F1 dt F1 = p.Ks * dt := by
  unfold gaF; ring

/-- The denominator of the derivative is positive wherever the root finder looks. -/
theorem gaD_den_pos {p : Soil} {thd ia F1 dt x : ℝ} (hpsi : 0 < p.psi) (hthd : 0 < thd)
    (hF : 0 < F1 + |p.psi| * thd) (hia : 0 ≤ ia * dt) (hx : Hull 0 (F1 + ia * dt) x) :
    0 < p.psi * thd + x := by
  rw [abs_of_pos hpsi] at hF
  have hc0 : 0 < p.psi * thd := mul_pos hpsi hthd
  have := hx.1
  rcases le_total 0 (F1 + ia * dt) with h | h
  · rw [min_eq_left h] at this; linarith
  · rw [min_eq_right h] at this; linarith

/-- The solver never ends more than its tolerance below the infiltration it started from. -/
theorem runNewton_lower {p : Soil} (hp : p.Physical) {thd ia x0 F1 dt r : ℝ} (hthd : 0 < thd)
    (hia : 0 ≤ ia) (hdt : 0 ≤ dt) (h : runNewton p thd ia x0 F1 dt = .ok r) :
    F1 - 1.48e-8 ≤ r := by
  obtain ⟨-, hb⟩ := runNewton_ok h
  have hin := C39_in_interval hb
  have hprod : 0 ≤ ia * dt := mul_nonneg hia hdt
  rcases lt_or_ge (F1 + ia * dt) 0 with hneg | hpos
  · have := hin.1
    rw [min_eq_right hneg.le] at this
    have h9 : (0 : ℝ) < 1.48e-8 := by norm_num
    linarith
  rcases le_or_gt F1 0 with hF | hF
  · have := hin.1
    rw [min_eq_left hpos] at this
    have h9 : (0 : ℝ) < 1.48e-8 := by norm_num
    linarith
  have hz : 0 ≤ gaF p thd F1 dt F1 := by rw [gaF_self]; have := hp.Ks; positivity
  have hnn : ∀ x, Hull 0 (F1 + ia * dt) x → 0 ≤ x := by
    intro x hx; have := hx.1; rwa [min_eq_left hpos] at this
  have hlt : ∀ x, 0 ≤ x → x < F1 → 0 < gaF p thd F1 dt x := fun x hx hxF =>
    lt_of_le_of_lt hz (gaF_anti hp.psi hthd hx hxF)
  refine loop_lower 50 (inv_init _ _ x0 0 (F1 + ia * dt)) ?_ ?_ ?_ (by norm_num) hb
  · have : gaF p thd F1 dt (F1 + ia * dt) < gaF p thd F1 dt 0 :=
      gaF_anti hp.psi hthd le_rfl (by linarith)
    simp only [initState, if_pos this]
    linarith
  · intro x hx hfx
    by_contra hcon
    push Not at hcon
    linarith [hlt x (hnn x hx) hcon]
  · intro y hy hD hr
    have ht := gaF_tangent (F1 := F1) (dt := dt) hp.psi hthd (hnn y hy) (hnn _ hr)
    have he : gaD p thd y * (y - gaF p thd F1 dt y / gaD p thd y - y) = - gaF p thd F1 dt y := by
      field_simp; ring
    rw [he] at ht
    by_contra hcon
    push Not at hcon
    linarith [hlt _ (hnn _ hr) hcon]

/-- **C36 (non-negative up to the solver's tolerance).** With non-negative rainfall, in every completed
step the infiltration rate is at least `-1.48e-8 / dt`. -/
theorem C36_lower {p : Soil} (hp : p.Physical) {dt i : ℝ} (hdt : 0 < dt) (hi : 0 ≤ i) {s s' : GA}
    (hs : InRange p s) (h : step p dt i s = .ok s') : -(1.48e-8 / dt) ≤ s'.f := by
  have hia : 0 ≤ i + s.d / dt := add_nonneg hi (div_nonneg hs.d_lo hdt.le)
  obtain ⟨u, hb, rfl⟩ := step_ok h
  show _ ≤ u.f
  generalize i + s.d / dt = ia at hb hia
  have h9 : (0 : ℝ) < 1.48e-8 := by norm_num
  have hneg : -(1.48e-8 / dt) ≤ 0 := by have : (0:ℝ) < 1.48e-8 / dt := by positivity
                                        linarith
  have hsat : ∀ {v v' : GA}, 0 < v.thd → saturatedCase p dt ia v = .ok v' → -(1.48e-8 / dt) ≤ v'.f := by
    intro v v' hthd hv
    obtain ⟨F2, hr, rfl⟩ := saturatedCase_ok hv
    show _ ≤ min (F2 - v.F) (ia * dt) / dt
    have := runNewton_lower hp hthd hia hdt.le hr
    rw [← neg_div, div_le_div_iff_of_pos_right hdt]
    refine le_min (by linarith) ?_
    have := mul_nonneg hia hdt.le
    linarith
  rcases infiltrate_ok hp.Ks hb with ⟨-, h⟩ | ⟨-, -, rfl⟩ | ⟨-, hK, h⟩
  · have := hsat (v := { s with T := s.T - dt }) hs.thd_lo h; exact this
  · exact hneg.trans hia
  · rcases case3_ok h with ⟨-, h⟩ | ⟨-, -, rfl⟩ | ⟨c1, c2, F2, hr, rfl⟩
    · have := hsat (v := { s with T := p.Tr, sat := true }) hs.thd_lo h; exact this
    · exact hneg.trans hia
    · have hia' : 0 < ia := hp.Ks.trans hK
      have hsub : 0 ≤ dt - (Fsat p ia s.thd - s.F) / ia := by
        rw [sub_nonneg, div_le_iff₀ hia']
        have c2' : Fsat p ia s.thd ≤ s.F + ia * dt := c2
        linarith
      have := runNewton_lower hp hs.thd_lo hia hsub hr
      show _ ≤ (F2 - s.F) / dt
      rw [← neg_div, div_le_div_iff_of_pos_right hdt]
      have c1' : s.F < Fsat p ia s.thd := c1
      have this' : Fsat p ia s.thd - 1.48e-8 ≤ F2 := this
      linarith

/-! ### C37: the surface water balance -/

/-- Balance of the ponded water over a step: change of ponded depth = rainfall − infiltration −
runoff (per area), times the step. -/
def SurfaceBalance (p : Soil) (dt i : ℝ) (s s' : GA) : Prop :=
  s'.d - s.d = dt * (i - s'.f - s'.Q / p.A_s)

/-- What a step does to the ponded depth and to the runoff, for every outcome of the infiltration. -/
theorem surface_formula {p : Soil} (hp : p.Physical) {dt i : ℝ} {s s' : GA}
    (h : step p dt i s = .ok s') :
    s'.d = max (s.d + (i - s'.f)) 0 ∧ s'.Q = max (i - s'.f) 0 * p.A_s := by
  obtain ⟨u, hb, rfl⟩ := step_ok h
  have hd : u.d = s.d := by
    rcases infiltrate_ok hp.Ks hb with ⟨-, h⟩ | ⟨-, -, rfl⟩ | ⟨-, hK, h⟩
    · obtain ⟨F2, -, rfl⟩ := saturatedCase_ok h; rfl
    · simp only [case2]; split_ifs <;> rfl
    · rcases case3_ok h with ⟨-, h⟩ | ⟨-, -, rfl⟩ | ⟨-, c2, F2, hr, rfl⟩
      · obtain ⟨F2, -, rfl⟩ := saturatedCase_ok h; rfl
      · rfl
      · rfl
  simp only [surface, hd]
  exact ⟨trivial, trivial⟩

/-- **C37 (water that does not infiltrate is counted twice).** When rainfall is at least the
infiltration, the balance holds exactly when they are equal: any excess both runs off entirely and is
added to the ponded depth. -/
theorem C37_excess_iff {p : Soil} (hp : p.Physical) (hA : 0 < p.A_s) {dt i : ℝ} {s s' : GA}
    (hd : 0 ≤ s.d) (h : step p dt i s = .ok s') (hex : s'.f ≤ i) :
    SurfaceBalance p dt i s s' ↔ s'.f = i := by
  obtain ⟨h1, h2⟩ := surface_formula hp h
  unfold SurfaceBalance
  rw [h1, h2, max_eq_left (by linarith), max_eq_left (by linarith : 0 ≤ i - s'.f),
    mul_div_assoc, div_self hA.ne']
  constructor <;> intro hh <;> nlinarith

/-- **C37 (ponded water drains at the wrong rate).** When infiltration exceeds rainfall and the pond is
not exhausted, the balance holds exactly when the step size is one second. -/
theorem C37_drain_iff {p : Soil} (hp : p.Physical) {dt i : ℝ} {s s' : GA}
    (h : step p dt i s = .ok s') (hex : i < s'.f) (hd : 0 ≤ s.d + (i - s'.f)) :
    SurfaceBalance p dt i s s' ↔ dt = 1 := by
  obtain ⟨h1, h2⟩ := surface_formula hp h
  unfold SurfaceBalance
  rw [h1, h2, max_eq_left hd, max_eq_right (by linarith : i - s'.f ≤ 0)]
  simp only [zero_mul, zero_div, sub_zero]
  have hne : i - s'.f ≠ 0 := by linarith
  constructor
  · intro hh
    have : (1 - dt) * (i - s'.f) = 0 := by linarith
    rcases mul_eq_zero.mp this with h' | h'
    · linarith
    · exact absurd h' hne
  · intro hh; rw [hh]; ring

/-- **C37 (partial).** The balance holds on steps where all rain infiltrates, and on draining steps of
one second. Missing: everything else, by the two equivalences above. -/
theorem C37_balance_partial {p : Soil} (hp : p.Physical) (hA : 0 < p.A_s) {dt i : ℝ} {s s' : GA}
    (hd : 0 ≤ s.d) (h : step p dt i s = .ok s')
    (hc : s'.f = i ∨ (i < s'.f ∧ 0 ≤ s.d + (i - s'.f) ∧ dt = 1)) : SurfaceBalance p dt i s s' := by
  rcases hc with hc | ⟨h1, h2, h3⟩
  · exact (C37_excess_iff hp hA hd h hc.le).mpr hc
  · exact (C37_drain_iff hp h h1 h2).mpr h3

/-- **C37 (water is created on every soil).** In dry weather over a step longer than a second, a pond
shallow enough to infiltrate entirely does infiltrate entirely, and yet most of it is still there after
the step: `d (1 - 1/dt)` metres of water have been created. -/
theorem C37_creates_water {p : Soil} (hp : p.Physical) {dt : ℝ} (hdt : 1 < dt) {s : GA} (hd : 0 < s.d)
    (hsat : s.sat = false) (hK : s.d / dt ≤ p.Ks) :
    ∃ s', step p dt 0 s = .ok s' ∧ s'.f * dt = s.d ∧ s'.d = s.d * (1 - 1 / dt) ∧
      ¬ SurfaceBalance p dt 0 s s' := by
  have hdt0 : 0 < dt := by linarith
  have hne : s.d / dt ≠ 0 := (div_pos hd hdt0).ne'
  have hret : ∃ s', step p dt 0 s = .ok s' ∧ s'.f = s.d / dt := by
    simp only [step, available, zero_add, infiltrate, hsat, Bool.false_eq_true, if_false, if_neg hne,
      if_pos hK, if_neg (not_lt.mpr hK), gt_iff_lt]
    exact ⟨_, rfl, rfl⟩
  obtain ⟨s', hs', hf⟩ := hret
  have hlt : s.d / dt ≤ s.d := by rw [div_le_iff₀ hdt0]; nlinarith
  have hd' := (surface_formula hp hs').1
  rw [hf, zero_sub, max_eq_left (by linarith)] at hd'
  refine ⟨s', hs', by rw [hf]; field_simp, by rw [hd']; ring, fun hb => ?_⟩
  have := (C37_drain_iff hp hs' (by rw [hf]; exact div_pos hd hdt0) (by rw [hf]; linarith)).mp hb
  linarith

/-! ### C66: cumulative infiltration -/

/-- **C66 (partial: wet steps).** With non-negative rainfall, a wet or saturated step keeps the
cumulative infiltration above the tolerance of the solver below zero; a dry step after the recovery time
resets it to zero. Missing: dry steps during the recovery time. -/
theorem C66_wet_partial {p : Soil} (hp : p.Physical) {dt i : ℝ} (hdt : 0 < dt) (hi : 0 ≤ i) {s s' : GA}
    (hs : InRange p s) (hF : 0 ≤ s.F) (hw : s.sat = true ∨ i + s.d / dt ≠ 0)
    (h : step p dt i s = .ok s') : -1.48e-8 ≤ s'.F := by
  rw [C36_cumulative hp hdt hw h]
  have := C36_lower hp hdt hi hs h
  have h2 : dt * (-(1.48e-8 / dt)) ≤ dt * s'.f := mul_le_mul_of_nonneg_left this hdt.le
  have h3 : dt * (-(1.48e-8 / dt)) = -1.48e-8 := by field_simp
  linarith

/-- **C66 (violated in dry steps).** Every dry step of an unsaturated element without ponded water during
its recovery time lowers the cumulative infiltration by a fixed amount, with no floor at zero. -/
theorem C66_dry {p : Soil} (hp : p.Physical) {dt : ℝ} {s s' : GA} (hd : s.d = 0) (hsat : s.sat = false)
    (hT : dt < s.T) (h : step p dt 0 s = .ok s') :
    s'.F = s.F - p.kr * p.thmax * dt * p.Lu := by
  obtain ⟨u, hb, rfl⟩ := step_ok h
  show u.F = _
  rw [hd, zero_div, add_zero] at hb
  rcases infiltrate_ok hp.Ks hb with ⟨h, -⟩ | ⟨-, -, rfl⟩ | ⟨-, hK, -⟩
  · simp [hsat] at h
  · rw [if_pos rfl]
    simp only [case2, case1]
    rw [if_neg (by linarith)]
    ring
  · exact absurd hp.Ks (not_lt.mpr hK.le)

/-- The first step of a fresh element under rain above the conductivity and short enough not to saturate. -/
theorem first_step {p : Soil} (hp : p.Physical) {dt i : ℝ} (hK : p.Ks < i)
    (hshort : i * dt < Fsat p i p.thmax) :
    step p dt i (initial p) = .ok (surface p dt i { initial p with
      T := p.Tr
      f := i
      F := 0 + i * dt
      thdu := clampTh p (p.thmax - i * dt / p.Lu) }) := by
  have hia : i ≠ 0 := (hp.Ks.trans hK).ne'
  have hF : ¬ (0 : ℝ) ≥ Fsat p i p.thmax := by
    have := Fsat_pos hp hK hp.thmax
    push Not; exact this
  have e : p.Ks * p.psi * p.thmax / (i - p.Ks) = Fsat p i p.thmax := rfl
  have h1 : infiltrate p dt i { initial p with T := 0 - dt } = .ok { initial p with
      T := p.Tr
      f := i
      F := 0 + i * dt
      thdu := clampTh p (p.thmax - i * dt / p.Lu) } := by
    simp only [infiltrate, initial, if_neg hia, if_neg (not_le.mpr hK), if_pos hK, case3, e,
      Bool.false_eq_true, if_false, gt_iff_lt]
    rw [if_neg hF, if_pos (by linarith)]
  simp only [step, available]
  have h2 : i + (initial p).d / dt = i := by simp [initial]
  rw [h2]
  have h3 : (initial p).T = 0 := rfl
  rw [h3, h1]
  rfl

/-- **C66 (violated on every soil).** For every physical soil and every rainfall above its conductivity:
a sufficiently short shower followed by half a recovery time of dry weather leaves a *negative*
cumulative infiltration. -/
theorem C66_negative {p : Soil} (hp : p.Physical) {i : ℝ} (hK : p.Ks < i) :
    ∃ dt₁ dt₂, 0 < dt₁ ∧ 0 < dt₂ ∧ ∃ s', run p [(dt₁, i), (dt₂, 0)] (initial p) = .ok s' ∧ s'.F < 0 := by
  have hi : 0 < i := hp.Ks.trans hK
  set L := p.kr * p.thmax * (p.Tr / 2) * p.Lu with hL
  have hLpos : 0 < L := by
    have h1 := hp.kr
    have h2 := hp.thmax
    have h3 := hp.Tr
    have h4 := hp.Lu
    rw [hL]; positivity
  have hFs := Fsat_pos hp hK hp.thmax
  set dt₁ := min (L / 2) (Fsat p i p.thmax / 2) / i with hdt₁
  have h1pos : 0 < dt₁ := div_pos (lt_min (by linarith) (by linarith)) hi
  have hi1 : i * dt₁ = min (L / 2) (Fsat p i p.thmax / 2) := by rw [hdt₁]; field_simp
  have hshort : i * dt₁ < Fsat p i p.thmax := by
    rw [hi1]; exact lt_of_le_of_lt (min_le_right _ _) (by linarith)
  have hlow : i * dt₁ < L := by
    rw [hi1]; exact lt_of_le_of_lt (min_le_left _ _) (by linarith)
  have hTr := hp.Tr
  have hs1 := first_step hp hK hshort
  set s1 := surface p dt₁ i { initial p with
      T := p.Tr
      f := i
      F := 0 + i * dt₁
      thdu := clampTh p (p.thmax - i * dt₁ / p.Lu) } with hs1def
  have hd1 : s1.d = 0 := by
    rw [hs1def]; simp [surface, initial]
  have hsat1 : s1.sat = false := rfl
  have hT1 : s1.T = p.Tr := rfl
  have hF1 : s1.F = i * dt₁ := by rw [hs1def]; simp [surface]
  -- the dry step returns
  have hret : ∃ s', step p (p.Tr / 2) 0 s1 = .ok s' := by
    simp only [step, available, hd1, zero_div, add_zero, infiltrate, hsat1, Bool.false_eq_true,
      if_false, if_true, gt_iff_lt, hp.Ks.le]
    rw [if_neg (not_lt.mpr hp.Ks.le)]
    exact ⟨_, rfl⟩
  obtain ⟨s', hs'⟩ := hret
  have hF := C66_dry hp hd1 hsat1 (by rw [hT1]; linarith) hs'
  refine ⟨dt₁, p.Tr / 2, h1pos, by linarith, s', ?_, ?_⟩
  · simp only [run, hs1, hs', bind, Except.bind]
  · rw [hF, hF1]; linarith

/-- **C35 (no `nan` while cumulative infiltration is not negative).** -/
theorem C35_no_nan {p : Soil} (hp : p.Physical) {dt i : ℝ} {s : GA} (hs : InRange p s)
    (hF : 0 ≤ s.F) : step p dt i s ≠ .error .nan := by
  have hc : ∀ {thd F1 : ℝ} (ia x0 dt : ℝ), 0 < thd → 0 ≤ F1 → runNewton p thd ia x0 F1 dt ≠ .error .nan := by
    intro thd F1 ia x0 dt hthd hF1
    unfold runNewton
    have : 0 < F1 + |p.psi| * thd := by
      have := hp.psi
      have : 0 < |p.psi| := abs_pos.mpr this.ne'
      positivity
    rw [if_pos this]
    cases boundedNewtonRaphson (gaF p thd F1 dt) (gaD p thd) x0 0 (F1 + ia * dt) 50 1.48e-8 <;> simp
  have hsat : ∀ {v : GA} (ia dt : ℝ), 0 < v.thd → 0 ≤ v.F → saturatedCase p dt ia v ≠ .error .nan := by
    intro v ia dt hthd hF hv
    unfold saturatedCase at hv
    cases hb : runNewton p v.thd ia v.F v.F dt with
    | error e =>
      rw [hb] at hv
      simp only [bind, Except.bind, Except.error.injEq] at hv
      rw [hv] at hb
      exact hc ia v.F dt hthd hF hb
    | ok F2 => rw [hb] at hv; simp [bind, Except.bind, pure, Except.pure] at hv
  intro hn
  simp only [step] at hn
  cases hb : infiltrate p dt (available dt i s) { s with T := s.T - dt } with
  | ok u => rw [hb] at hn; simp [bind, Except.bind, pure, Except.pure] at hn
  | error e =>
    rw [hb] at hn
    simp only [bind, Except.bind, Except.error.injEq] at hn
    subst hn
    generalize available dt i s = ia at hb
    simp only [infiltrate] at hb
    by_cases hsatb : s.sat = true
    · rw [if_pos hsatb] at hb
      exact hsat ia dt (v := { s with T := s.T - dt }) hs.thd_lo hF hb
    · rw [if_neg hsatb] at hb
      by_cases hK : ia ≤ p.Ks
      · rw [if_neg (not_lt.mpr hK)] at hb; cases hb
      · push Not at hK
        rw [if_pos hK, if_neg (not_le.mpr hK), if_neg (hp.Ks.trans hK).ne'] at hb
        simp only [case3] at hb
        split_ifs at hb with c1 c2
        · exact hsat ia dt (v := { s with T := p.Tr, sat := true }) hs.thd_lo hF hb
        · cases hr : runNewton p s.thd ia s.F (p.Ks * p.psi * s.thd / (ia - p.Ks))
            (dt - (p.Ks * p.psi * s.thd / (ia - p.Ks) - s.F) / ia) with
          | error e =>
            rw [hr] at hb
            simp only [bind, Except.bind, Except.error.injEq] at hb
            rw [hb] at hr
            exact hc ia s.F _ hs.thd_lo (Fsat_pos hp hK hs.thd_lo).le hr
          | ok F2 => rw [hr] at hb; simp [bind, Except.bind, pure, Except.pure] at hb

/-- A physical soil, and a completed step on it with rain above its conductivity. -/
example : ∃ (p : Soil) (s' : GA), p.Physical ∧ 0 < p.A_s ∧ InRange p (initial p) ∧
    step p (1 / 100) 2 (initial p) = .ok s' ∧ s'.f = 2 := by
  let p : Soil := ⟨1, 1, 1, 1⟩
  have hp : p.Physical := ⟨one_pos, one_pos, one_pos, zero_le_one⟩
  refine ⟨p, _, hp, one_pos, inRange_initial hp, first_step hp ?_ ?_, rfl⟩
  · show (1 : ℝ) < 2; norm_num
  · show (2 : ℝ) * (1 / 100) < 1 * 1 * 1 / (2 - 1); norm_num

end Pipedream.Infiltration
