import Verif.DriverModel

/-!
# Properties of the time-stepping drivers (C40–C44, C46, C59, C61)
-/

namespace Pipedream.Driver

open Pipedream.Link

variable {X W I : Type} {hy : Hydraulics X W I} {c : Cfg I}

/-! ### One pass and the fixed-point iteration (C46, C59) -/

/-- **C59 (violated).** Calling `step()` on the hydraulic model without `dt` never completes: the set-up
uses the default step size, the final update of the clock raises. -/
theorem C59_hydraulics_never_completes (dflt : ℝ) (numIter : ℤ) (tol : ℝ) (inp : I) (s : Mdl X W) :
    ∃ e, superStep hy dflt none numIter tol inp s = .error e := by
  unfold superStep onePass
  simp only [if_true, Option.getD_none]
  cases hy.pass _ _ _ dflt inp with
  | error e => exact ⟨_, rfl⟩
  | ok p => exact ⟨_, rfl⟩

/-- **C59 (violated, exactly how).** When the hydraulics raise nothing themselves, the error is a
`TypeError`. -/
theorem C59_type_error (dflt : ℝ) (numIter : ℤ) (tol : ℝ) (inp : I) (s : Mdl X W) {p : X × W}
    (h : hy.pass s.x s.x s.w dflt inp = .ok p) :
    superStep hy dflt none numIter tol inp s = .error (.py .typeError) := by
  simp only [superStep, onePass, saveState, if_true, Option.getD_none, h]

/-- **C59 (partial).** With the default step size passed explicitly, the kernels receive the step size
that the call without `dt` gave to the set-up, and the call completes. Missing: the call without `dt`. -/
theorem C59_explicit_partial (dflt tol : ℝ) (inp : I) (s : Mdl X W) {x : X} {w : W}
    (h : hy.pass s.x s.x s.w dflt inp = .ok (x, w)) :
    superStep hy dflt (some dflt) 1 tol inp s
      = .ok ({ t := s.t + dflt, iter := s.iter + 1, x := x, saved := (s.t, s.x), w := w }, 1) := by
  simp [superStep, onePass, saveState, h]

theorem onePass_ok {dflt dt : ℝ} {first : Bool} {inp : I} {s s' : Mdl X W}
    (h : onePass hy dflt (some dt) first inp s = .ok s') :
    ∃ x w, hy.pass (if first then s.x else s.saved.2) s.x s.w dt inp = .ok (x, w) ∧
      s' = { t := s.t + dt, iter := s.iter + 1, x := x, w := w,
             saved := if first then (s.t, s.x) else s.saved } := by
  unfold onePass saveState at h
  cases first
  · simp only [Bool.false_eq_true, if_false, Option.getD_some] at h ⊢
    cases hp : hy.pass s.saved.2 s.x s.w dt inp with
    | error e => rw [hp] at h; cases h
    | ok p => rw [hp] at h; cases h; exact ⟨p.1, p.2, rfl, rfl⟩
  · simp only [if_true, Option.getD_some] at h ⊢
    cases hp : hy.pass s.x s.x s.w dt inp with
    | error e => rw [hp] at h; cases h
    | ok p => rw [hp] at h; cases h; exact ⟨p.1, p.2, rfl, rfl⟩

/-- A sequence of solves `x₀, x₁, …, xₑ`, all with the same saved state. -/
structure Chain (hy : Hydraulics X W I) (saved : X) (dt : ℝ) (inp : I) (a b : X) (wa : W) (e : ℕ)
    (xs : ℕ → X) (ws : ℕ → W) : Prop where
  start : xs 0 = a
  startW : ws 0 = wa
  stop : xs e = b
  solve : ∀ i, i < e → hy.pass saved (xs i) (ws i) dt inp = .ok (xs (i + 1), ws (i + 1))

theorem fixLoop_spec {dflt dt tol : ℝ} {inp : I} (n : ℕ) {s : Mdl X W} {e : ℕ} {r : Mdl X W × ℕ}
    (h : fixLoop hy dflt dt tol inp n s.x s e = .ok r) :
    r.1.t = s.t ∧ r.1.iter = s.iter ∧ r.1.saved = s.saved ∧
    ∃ k xs ws, k ≤ n ∧ r.2 = e + k ∧ Chain hy s.saved.2 dt inp s.x r.1.x s.w k xs ws ∧
      (k < n → 1 ≤ k ∧ Close hy tol (xs (k - 1)) (xs k)) ∧
      (∀ i, 1 ≤ i → i < k → ¬ Close hy tol (xs (i - 1)) (xs i)) := by
  induction n generalizing s e with
  | zero =>
    cases h
    exact ⟨rfl, rfl, rfl, 0, fun _ => s.x, fun _ => s.w, le_rfl, rfl, ⟨rfl, rfl, rfl, by omega⟩,
      by omega, by omega⟩
  | succ n ih =>
    simp only [fixLoop] at h
    cases hp : onePass hy dflt (some dt) false inp { s with iter := s.iter - 1, t := s.t - dt } with
    | error er => rw [hp] at h; cases h
    | ok s' =>
      rw [hp] at h
      obtain ⟨x, w, hpass, rfl⟩ := onePass_ok hp
      simp only [Bool.false_eq_true, if_false] at h hpass
      have et : s.t - dt + dt = s.t := by ring
      have ei : s.iter - 1 + 1 = s.iter := by ring
      by_cases hc : Close hy tol s.x x
      · rw [if_pos hc] at h
        cases h
        refine ⟨et, ei, rfl, 1, fun i => if i = 0 then s.x else x, fun i => if i = 0 then s.w else w,
          by omega, rfl, ⟨rfl, rfl, rfl, ?_⟩, ?_, by omega⟩
        · intro i hi
          have : i = 0 := by omega
          subst this
          exact hpass
        · intro _; exact ⟨le_rfl, hc⟩
      · rw [if_neg hc] at h
        obtain ⟨h1, h2, h3, k, xs, ws, hk, hr, hch, hcl, hnc⟩ := ih
          (s := { t := s.t - dt + dt, iter := s.iter - 1 + 1, x := x, w := w, saved := s.saved }) h
        refine ⟨h1.trans et, h2.trans ei, h3, k + 1, fun i => if i = 0 then s.x else xs (i - 1),
          fun i => if i = 0 then s.w else ws (i - 1), by omega, by omega, ⟨rfl, rfl, ?_, ?_⟩, ?_, ?_⟩
        · simpa using hch.stop
        · intro i hi
          rcases Nat.eq_zero_or_pos i with rfl | hpos
          · simp only [if_true, Nat.zero_add, Nat.one_ne_zero, if_false, Nat.sub_self]
            rw [hch.start, hch.startW]; exact hpass
          · rw [if_neg (by omega), if_neg (by omega), if_neg (by omega), if_neg (by omega)]
            have := hch.solve (i - 1) (by omega)
            rwa [show i - 1 + 1 = i + 1 - 1 by omega] at this
        · intro hlt
          obtain ⟨hk1, hcl'⟩ := hcl (by omega)
          refine ⟨by omega, ?_⟩
          beta_reduce; rw [if_neg (by omega), if_neg (by omega)]
          simpa using hcl'
        · intro i hi1 hik
          rcases Nat.lt_or_ge i 2 with h2 | h2
          · have : i = 1 := by omega
            subst this
            simp only [Nat.sub_self, if_true, Nat.one_ne_zero, if_false]
            rw [hch.start]; exact hc
          · beta_reduce; rw [if_neg (by omega), if_neg (by omega)]
            exact hnc (i - 1) (by omega) (by omega)

/-- **C46.** A completed `SuperLink.step` with any `num_iter` advances the clock by `dt` once and the
step counter by one, and saves the state before the step. It performs `e` solves, at least one and at
most `num_iter` (one if `num_iter ≤ 1`), each starting from the previous iterate with the *same* saved
state; the result is the last iterate. It stops before `num_iter` solves only when the last two iterates
agree within `head_tol`, and does not continue after two successive iterates agree. -/
theorem C46_step {dflt dt tol : ℝ} {numIter : ℤ} {inp : I} {s s' : Mdl X W} {e : ℕ}
    (h : superStep hy dflt (some dt) numIter tol inp s = .ok (s', e)) :
    s'.t = s.t + dt ∧ s'.iter = s.iter + 1 ∧ s'.saved = (s.t, s.x) ∧
    1 ≤ e ∧ (e : ℤ) ≤ max 1 numIter ∧
    ∃ xs ws, Chain hy s.x dt inp s.x s'.x s.w e xs ws ∧
      ((e : ℤ) < numIter → Close hy tol (xs e) (xs (e - 1)) ∨ Close hy tol (xs (e - 1)) (xs e)) ∧
      (∀ i, 2 ≤ i → i < e → ¬ Close hy tol (xs (i - 1)) (xs i)) ∧
      (1 < e → ¬ Close hy tol (xs 1) (xs 0)) := by
  simp only [superStep] at h
  cases hp : onePass hy dflt (some dt) true inp s with
  | error er => rw [hp] at h; cases h
  | ok s1 =>
    rw [hp] at h
    obtain ⟨x, w, hpass, rfl⟩ := onePass_ok hp
    simp only [if_true] at h hpass
    have one : Chain hy s.x dt inp s.x x s.w 1 (fun i => if i = 0 then s.x else x)
        (fun i => if i = 0 then s.w else w) :=
      ⟨rfl, rfl, rfl, fun i hi => by have : i = 0 := by omega
                                     subst this; exact hpass⟩
    by_cases hn : numIter - 1 > 0
    · rw [if_pos hn] at h
      change (@ite _ (Close hy tol x s.x) (Classical.dec _) _ _) = _ at h
      by_cases hc : Close hy tol x s.x
      · rw [if_pos hc] at h
        cases h
        exact ⟨rfl, rfl, rfl, le_rfl, le_max_left _ _, _, _, one, fun _ => Or.inl hc, by omega, by omega⟩
      · rw [if_neg hc] at h
        obtain ⟨h1, h2, h3, k, xs, ws, hk, hr, hch, hcl, hnc⟩ := fixLoop_spec _
          (s := { t := s.t + dt, iter := s.iter + 1, x := x, w := w, saved := (s.t, s.x) }) h
        simp only at h1 h2 h3 hr hch
        have hkn : (k : ℤ) ≤ numIter - 1 := by
          have : ((numIter - 1).toNat : ℤ) = numIter - 1 := Int.toNat_of_nonneg (by omega)
          omega
        refine ⟨h1, h2, h3, by omega, ?_, fun i => if i = 0 then s.x else xs (i - 1),
          fun i => if i = 0 then s.w else ws (i - 1), ⟨rfl, rfl, ?_, ?_⟩, ?_, ?_, ?_⟩
        · rw [hr]; push_cast; exact le_max_of_le_right (by omega)
        · rw [if_neg (by omega), hr, show 1 + k - 1 = k by omega]; exact hch.stop
        · intro i hi
          rcases Nat.eq_zero_or_pos i with rfl | hpos
          · simp only [if_true, Nat.zero_add, Nat.one_ne_zero, if_false, Nat.sub_self]
            rw [hch.start, hch.startW]; exact hpass
          · rw [if_neg (by omega), if_neg (by omega), if_neg (by omega), if_neg (by omega)]
            have := hch.solve (i - 1) (by omega)
            rwa [show i - 1 + 1 = i + 1 - 1 by omega] at this
        · intro hlt
          right
          obtain ⟨hk1, hcl'⟩ := hcl (by omega)
          beta_reduce; rw [if_neg (by omega), if_neg (by omega), hr]
          rw [show 1 + k - 1 - 1 = k - 1 by omega, show 1 + k - 1 = k by omega]; exact hcl'
        · intro i hi2 hie
          beta_reduce; rw [if_neg (by omega), if_neg (by omega)]
          exact hnc (i - 1) (by omega) (by omega)
        · intro _
          simp only [Nat.one_ne_zero, if_false, Nat.sub_self, if_true]
          rw [hch.start]; exact hc
    · rw [if_neg hn] at h
      cases h
      refine ⟨rfl, rfl, rfl, le_rfl, le_max_left _ _, _, _, one, fun hlt => ?_, by omega, by omega⟩
      push_cast at hlt; omega

/-! ### Accepted steps (C40, C41, C42, C44) -/

theorem modelStep_ok {dt : ℝ} {m m' : Mdl X W} (h : modelStep hy c dt m = .ok m') :
    m'.t = m.t + dt ∧ m'.saved = (m.t, m.x) := by
  unfold modelStep at h
  cases hs : superStep hy c.dflt (some dt) c.numIter c.headTol (c.forcing (m.t + dt)) m with
  | error e => rw [hs] at h; cases h
  | ok r =>
    rw [hs] at h; cases h
    obtain ⟨h1, -, h3, -⟩ := C46_step (s' := r.1) (e := r.2) hs
    exact ⟨h1, h3⟩

theorem substeps_time {dt : ℝ} (n : ℕ) {m m' : Mdl X W} (h : substeps hy c dt n m = .ok m') :
    m'.t = m.t + n * dt := by
  induction n generalizing m with
  | zero => cases h; simp
  | succ n ih =>
    simp only [substeps] at h
    cases hs : modelStep hy c dt m with
    | error e => rw [hs] at h; cases h
    | ok m1 =>
      rw [hs] at h
      rw [ih h, (modelStep_ok hs).1]; push_cast; ring

/-- What an attempt does: time advances by `dt`, `initial_state` is the state before it, and the model is
the result of the coarse step or of the substeps run after reloading that state. -/
theorem attempt_ok {sub : ℕ} {norm : ℤ} {dt : ℝ} {m m' : Mdl X W} {err : Est} {ini : ℝ × X}
    (h : attempt hy c sub norm dt m = .ok (m', err, ini)) :
    m'.t = m.t + dt ∧ ini = (m.t, m.x) ∧
    ((¬ sub > 1 ∧ modelStep hy c dt m = .ok m' ∧ err = .none) ∨
     (sub > 1 ∧ ∃ m1, modelStep hy c dt m = .ok m1 ∧
        substeps hy c (dt / sub) sub (loadState hy (m.t, m.x) m1) = .ok m' ∧
        normedErr norm hy.M (scaledErr hy m1.x m'.x m'.saved.2) = .ok err)) := by
  unfold attempt at h
  cases hs : modelStep hy c dt m with
  | error e => rw [hs] at h; cases h
  | ok m1 =>
    rw [hs] at h
    obtain ⟨ht, hsv⟩ := modelStep_ok hs
    simp only at h
    by_cases hsub : sub > 1
    · rw [if_pos hsub] at h
      cases hq : substeps hy c (dt / sub) sub (loadState hy m1.saved m1) with
      | error e => rw [hq] at h; cases h
      | ok m2 =>
        rw [hq] at h
        simp only at h
        cases hn : normedErr norm hy.M (scaledErr hy m1.x m2.x m2.saved.2) with
        | error e => rw [hn] at h; cases h
        | ok er =>
          rw [hn] at h
          cases h
          refine ⟨?_, hsv, Or.inr ⟨hsub, m1, rfl, by rw [← hsv]; exact hq, hn⟩⟩
          rw [substeps_time _ hq, hsv]
          have : (sub : ℝ) ≠ 0 := by positivity
          simp only [loadState]
          field_simp
    · rw [if_neg hsub] at h
      cases h
      exact ⟨ht, hsv, Or.inl ⟨hsub, rfl, rfl⟩⟩

theorem finish_ok {s s' : Sim X W} (h : finish hy s = .ok s') :
    Finite hy s.m.x ∧ s' = { s with iter := s.iter + 1 } := by
  unfold finish at h
  by_cases hf : Finite hy s.m.x
  · rw [if_pos hf] at h; cases h; exact ⟨hf, rfl⟩
  · rw [if_neg hf] at h; cases h

/-- A call of `Simulation.step` that completed ended with an accepted attempt: level `j` (number of
halvings), model before and after that attempt, and the error it recorded. -/
structure Accepted (hy : Hydraulics X W I) (c : Cfg I) (sub retries : ℕ) (tol : ℝ) (norm : ℤ) (dt : ℝ)
    (s s' : Sim X W) (j : ℕ) (m0 : Mdl X W) (err : Est) : Prop where
  level : j ≤ retries
  from_t : m0.t = s.m.t
  from_x : m0.x = s.m.x
  first : j = 0 → m0 = s.m
  run : ∃ ini, attempt hy c sub (if j = 0 then norm else 2) (dt / 2 ^ j) m0 = .ok (s'.m, err, ini)
  finite : Finite hy s'.m.x
  dt_eq : s'.dt = dt / 2 ^ j
  dts : s'.dts = push (dt / 2 ^ j) s.dts
  errs : s'.errs = push err s.errs
  halved : 0 < j → c.minDt < dt / 2 ^ j
  good : j = retries ∨ ¬ err.rejected (if j = 0 then tol else 1) ∨ dt / 2 ^ (j + 1) ≤ c.minDt

theorem push_tail {α : Type} (a b : α) (l : List α) : push b (push a l).tail = push b l := by
  rcases l with _ | ⟨x, _ | ⟨y, _ | ⟨z, l⟩⟩⟩ <;> rfl

theorem simStep_accepted (sub retries : ℕ) {tol : ℝ} {norm : ℤ} {dt : ℝ} {s s' : Sim X W}
    (h : simStep hy c sub retries tol norm dt s = .ok s') :
    ∃ j m0 err, Accepted hy c sub retries tol norm dt s s' j m0 err := by
  induction retries generalizing tol norm dt s s' with
  | zero =>
    simp only [simStep] at h
    cases ha : attempt hy c sub norm dt s.m with
    | error e => rw [ha] at h; cases h
    | ok r =>
      obtain ⟨m, err, ini⟩ := r
      rw [ha] at h
      obtain ⟨hf, rfl⟩ := finish_ok h
      exact ⟨0, s.m, err, le_rfl, rfl, rfl, fun _ => rfl, ⟨ini, by simpa [record] using ha⟩, hf, by simp [record],
        by simp [record], rfl, by omega, Or.inl rfl⟩
  | succ r ih =>
    simp only [simStep] at h
    cases ha : attempt hy c sub norm dt s.m with
    | error e => rw [ha] at h; cases h
    | ok q =>
      obtain ⟨m, err, ini⟩ := q
      rw [ha] at h
      simp only at h
      by_cases hr : err.rejected tol ∧ 0.5 * dt > c.minDt
      · rw [if_pos hr] at h
        cases hs : simStep hy c sub r 1 2 (0.5 * dt)
            { record dt m err s with m := loadState hy ini m, dts := (record dt m err s).dts.tail,
                                     errs := (record dt m err s).errs.tail } with
        | error e => rw [hs] at h; cases h
        | ok s2 =>
          rw [hs] at h
          obtain ⟨hf, rfl⟩ := finish_ok h
          obtain ⟨j, m0, er, acc⟩ := ih hs
          obtain ⟨-, hini, -⟩ := attempt_ok ha
          have e1 : ∀ k : ℕ, 0.5 * dt / 2 ^ k = dt / 2 ^ (k + 1) := by
            intro k; rw [pow_succ]; field_simp; ring
          obtain ⟨ini', hrun⟩ := acc.run
          have hnorm : (if j = 0 then (2 : ℤ) else 2) = 2 := by split_ifs <;> rfl
          have htol : (if j = 0 then (1 : ℝ) else 1) = 1 := by split_ifs <;> rfl
          refine ⟨j + 1, m0, er, ?_⟩
          constructor
          · have := acc.level; omega
          · rw [acc.from_t, hini]; rfl
          · rw [acc.from_x, hini]; rfl
          · omega
          · refine ⟨ini', ?_⟩
            rw [if_neg (by omega), ← e1, ← hnorm]; exact hrun
          · exact hf
          · rw [← e1]; exact acc.dt_eq
          · rw [← e1]
            show s2.dts = _
            rw [acc.dts]; exact push_tail dt _ _
          · show s2.errs = _
            rw [acc.errs]; exact push_tail err _ _
          · intro _
            rcases Nat.eq_zero_or_pos j with rfl | hj
            · rw [← e1]; simpa using hr.2
            · rw [← e1]; exact acc.halved hj
          · rcases acc.good with g | g | g
            · left; omega
            · right; left; rw [if_neg (by omega)]; rwa [htol] at g
            · right; right; rw [← e1]; exact g
      · rw [if_neg hr] at h
        obtain ⟨hf, rfl⟩ := finish_ok h
        refine ⟨0, s.m, err, ?_⟩
        constructor
        · omega
        · rfl
        · rfl
        · intro _; rfl
        · exact ⟨ini, by simpa [record] using ha⟩
        · exact hf
        · simp [record]
        · simp [record]
        · rfl
        · omega
        · right
          by_cases hre : err.rejected tol
          · right
            have : ¬ 0.5 * dt > c.minDt := fun hh => hr ⟨hre, hh⟩
            push Not at this
            rw [zero_add, pow_one]
            linarith
          · left; simpa using hre

/-- **C40 (finite heads).** A completed `Simulation.step` leaves every superjunction head finite, and an attempt that is
not retried and leaves a head that is not finite ends in an `AssertionError`. -/
theorem C40_finite (sub retries : ℕ) {tol : ℝ} {norm : ℤ} {dt : ℝ} {s : Sim X W} :
    (∀ s', simStep hy c sub retries tol norm dt s = .ok s' → ∀ j, j < hy.M → hy.heads s'.m.x j ≠ none) ∧
    (∀ m err ini j, attempt hy c sub norm dt s.m = .ok (m, err, ini) →
      retries = 0 ∨ ¬ err.rejected tol ∨ 0.5 * dt ≤ c.minDt → j < hy.M → hy.heads m.x j = none →
      simStep hy c sub retries tol norm dt s = .error .assertion) := by
  constructor
  · intro s' h j hj
    obtain ⟨i, m0, err, acc⟩ := simStep_accepted sub retries h
    exact Option.isSome_iff_ne_none.mp (acc.finite j hj)
  · intro m err ini j ha hr hj hn
    have hf : finish hy (record dt m err s) = .error .assertion := by
      unfold finish
      rw [if_neg]
      intro hall
      have := hall j hj
      simp only [record] at this
      rw [hn] at this
      cases this
    cases retries with
    | zero => simp only [simStep, ha]; exact hf
    | succ r =>
      have hno : ¬ (err.rejected tol ∧ 0.5 * dt > c.minDt) := by
        rintro ⟨h1, h2⟩
        rcases hr with h | h | h
        · cases h
        · exact h h1
        · exact absurd h2 (not_lt.mpr h)
      simp only [simStep, ha, if_neg hno]
      exact hf

/-- **C40.** After a completed `Simulation.step` with any subdivisions and retries, simulation time has
advanced by exactly the accepted step: the requested one halved `j ≤ retries` times. It is the recorded
current step and the newest entry of the step-size history, and above `min_dt` whenever halved. -/
theorem C40_time (sub retries : ℕ) {tol : ℝ} {norm : ℤ} {dt : ℝ} {s s' : Sim X W}
    (h : simStep hy c sub retries tol norm dt s = .ok s') :
    ∃ j, j ≤ retries ∧ s'.m.t = s.m.t + dt / 2 ^ j ∧ s'.dt = dt / 2 ^ j ∧
      s'.dts.head? = some (dt / 2 ^ j) ∧ (0 < j → c.minDt < dt / 2 ^ j) := by
  obtain ⟨j, m0, err, acc⟩ := simStep_accepted sub retries h
  obtain ⟨ini, hrun⟩ := acc.run
  refine ⟨j, acc.level, ?_, acc.dt_eq, ?_, acc.halved⟩
  · rw [(attempt_ok hrun).1, acc.from_t]
  · rw [acc.dts]; rfl

/-- Time, state and saved state agree; counters and scratch arrays may differ. -/
def Same (m m' : Mdl X W) : Prop := m.t = m'.t ∧ m.x = m'.x

/-- The hydraulics carry no hidden state: the new hydraulic state (or exception) depends on the saved
state, the current state, the step size and the inputs, not on left-over scratch arrays. -/
def NoHidden (hy : Hydraulics X W I) : Prop :=
  ∀ p x w w' dt inp, (hy.pass p x w dt inp).map Prod.fst = (hy.pass p x w' dt inp).map Prod.fst

/-- Two results that are the same up to counters and scratch. -/
def SameR (r r' : Except DErr (Mdl X W)) : Prop :=
  match r, r' with
  | .ok m, .ok m' => Same m m' ∧ m.saved = m'.saved
  | .error e, .error e' => e = e'
  | _, _ => False

theorem onePass_same (hh : NoHidden hy) {dflt : ℝ} {dt : ℝ} {first : Bool} {inp : I} {m m' : Mdl X W}
    (hs : Same m m') (hv : first = true ∨ m.saved = m'.saved) :
    SameR (onePass hy dflt (some dt) first inp m) (onePass hy dflt (some dt) first inp m') := by
  have key : ∀ p x w w' (t t' : ℝ) (i i' : ℤ) (sv sv' : ℝ × X), t = t' → sv = sv' →
      SameR (match hy.pass p x w dt inp with
        | .error e => .error (DErr.py e)
        | .ok (x, w) => .ok { t := t + dt, iter := i + 1, x := x, saved := sv, w := w })
        (match hy.pass p x w' dt inp with
        | .error e => .error (DErr.py e)
        | .ok (x, w) => .ok { t := t' + dt, iter := i' + 1, x := x, saved := sv', w := w }) := by
    intro p x w w' t t' i i' sv sv' ht hsv
    have := hh p x w w' dt inp
    cases h1 : hy.pass p x w dt inp <;> cases h2 : hy.pass p x w' dt inp <;>
      rw [h1, h2] at this <;> simp only [Except.map] at this
    · simp only [SameR]; cases this; rfl
    · cases this
    · cases this
    · simp only [SameR, Same]
      injection this with this
      exact ⟨⟨by rw [ht], this⟩, hsv⟩
  obtain ⟨ht, hx⟩ := hs
  cases first
  · have hv : m.saved = m'.saved := by simpa using hv
    simp only [onePass, Bool.false_eq_true, if_false, Option.getD_some]
    rw [← hv, ← hx]
    exact key _ _ _ _ _ _ _ _ _ _ ht rfl
  · simp only [onePass, saveState, if_true, Option.getD_some]
    rw [← hx]
    exact key _ _ _ _ _ _ _ _ _ _ ht (by rw [ht])

/-- Two results of `superStep` that are the same up to counters and scratch. -/
def SameN (r r' : Except DErr (Mdl X W × ℕ)) : Prop :=
  SameR (r.map Prod.fst) (r'.map Prod.fst)

theorem fixLoop_same (hh : NoHidden hy) {dflt dt tol : ℝ} {inp : I} (n : ℕ) (xn : X) {m m' : Mdl X W}
    {e e' : ℕ} (hs : Same m m') (hv : m.saved = m'.saved) :
    SameN (fixLoop hy dflt dt tol inp n xn m e) (fixLoop hy dflt dt tol inp n xn m' e') := by
  induction n generalizing xn m m' e e' with
  | zero => exact ⟨hs, hv⟩
  | succ n ih =>
    simp only [fixLoop]
    have := onePass_same (hy := hy) hh (dflt := dflt) (dt := dt) (first := false) (inp := inp)
      (m := { m with iter := m.iter - 1, t := m.t - dt })
      (m' := { m' with iter := m'.iter - 1, t := m'.t - dt }) ⟨by simp [hs.1], hs.2⟩ (Or.inr hv)
    revert this
    cases onePass hy dflt (some dt) false inp { m with iter := m.iter - 1, t := m.t - dt } <;>
      cases onePass hy dflt (some dt) false inp { m' with iter := m'.iter - 1, t := m'.t - dt } <;>
      intro this
    · exact this
    · exact this.elim
    · exact this.elim
    · rename_i a b
      obtain ⟨hab, hsv⟩ := this
      simp only
      rw [← hab.2]
      by_cases hc : Close hy tol xn a.x
      · rw [if_pos hc, if_pos hc]; exact ⟨hab, hsv⟩
      · rw [if_neg hc, if_neg hc]; exact ih _ hab hsv

theorem modelStep_same (hh : NoHidden hy) {dt : ℝ} {m m' : Mdl X W} (hs : Same m m') :
    SameR (modelStep hy c dt m) (modelStep hy c dt m') := by
  have h1 : SameN (superStep hy c.dflt (some dt) c.numIter c.headTol (c.forcing (m.t + dt)) m)
      (superStep hy c.dflt (some dt) c.numIter c.headTol (c.forcing (m.t + dt)) m') := by
    simp only [superStep]
    have := onePass_same (hy := hy) hh (dflt := c.dflt) (dt := dt) (first := true)
      (inp := c.forcing (m.t + dt)) hs (Or.inl rfl)
    revert this
    cases onePass hy c.dflt (some dt) true (c.forcing (m.t + dt)) m <;>
      cases onePass hy c.dflt (some dt) true (c.forcing (m.t + dt)) m' <;> intro this
    · exact this
    · exact this.elim
    · exact this.elim
    · rename_i a b
      obtain ⟨hab, hsv⟩ := this
      simp only
      by_cases hn : c.numIter - 1 > 0
      · rw [if_pos hn, if_pos hn, ← hab.2, ← hsv]
        by_cases hc : Close hy c.headTol a.x a.saved.2
        · rw [if_pos hc, if_pos hc]; exact ⟨hab, hsv⟩
        · rw [if_neg hc, if_neg hc]; exact fixLoop_same hh _ _ hab hsv
      · rw [if_neg hn, if_neg hn]; exact ⟨hab, hsv⟩
  unfold modelStep
  rw [← hs.1]
  revert h1
  cases superStep hy c.dflt (some dt) c.numIter c.headTol (c.forcing (m.t + dt)) m <;>
    cases superStep hy c.dflt (some dt) c.numIter c.headTol (c.forcing (m.t + dt)) m' <;> intro h1
  · exact h1
  · exact h1.elim
  · exact h1.elim
  · exact h1

theorem substeps_same (hh : NoHidden hy) {dt : ℝ} (n : ℕ) {m m' : Mdl X W} (hs : Same m m')
    (hv : m.saved = m'.saved ∨ 0 < n) :
    SameR (substeps hy c dt n m) (substeps hy c dt n m') := by
  induction n generalizing m m' with
  | zero => exact ⟨hs, by simpa using hv⟩
  | succ n ih =>
    simp only [substeps]
    have := modelStep_same (c := c) hh (dt := dt) hs
    revert this
    cases modelStep hy c dt m <;> cases modelStep hy c dt m' <;> intro this
    · exact this
    · exact this.elim
    · exact this.elim
    · exact ih this.1 (Or.inl this.2)

/-- The step a user would perform directly: one step of size `d`, or `sub` steps of size `d / sub`. -/
noncomputable def direct (hy : Hydraulics X W I) (c : Cfg I) (sub : ℕ) (d : ℝ) (m : Mdl X W) :
    Except DErr (Mdl X W) :=
  if sub > 1 then substeps hy c (d / sub) sub m else modelStep hy c d m

/-- **C41.** Rejected attempts leave no trace: if the hydraulics carry no hidden state, a completed
`Simulation.step` leaves time, hydraulic state and saved state exactly as performing the accepted
(subdivided) step, once, on the model as it was before the call. -/
theorem C41_no_trace (hh : NoHidden hy) (sub retries : ℕ) {tol : ℝ} {norm : ℤ} {dt : ℝ} {s s' : Sim X W}
    (h : simStep hy c sub retries tol norm dt s = .ok s') :
    ∃ j m', j ≤ retries ∧ s'.dt = dt / 2 ^ j ∧ direct hy c sub (dt / 2 ^ j) s.m = .ok m' ∧
      m'.t = s'.m.t ∧ m'.x = s'.m.x ∧ m'.saved = s'.m.saved := by
  obtain ⟨j, m0, err, acc⟩ := simStep_accepted sub retries h
  obtain ⟨ini, hrun⟩ := acc.run
  obtain ⟨ht, -, hcase⟩ := attempt_ok hrun
  have hsame : Same s.m m0 := ⟨acc.from_t.symm, acc.from_x.symm⟩
  rcases hcase with ⟨hsub, hm, -⟩ | ⟨hsub, m1, hm1, hm, -⟩
  · have := modelStep_same (c := c) hh (dt := dt / 2 ^ j) hsame
    rw [hm] at this
    cases hd : modelStep hy c (dt / 2 ^ j) s.m with
    | error e => rw [hd] at this; exact this.elim
    | ok m' =>
      rw [hd] at this
      exact ⟨j, m', acc.level, acc.dt_eq, by rw [direct, if_neg hsub, hd], this.1.1, this.1.2, this.2⟩
  · have h2 : Same s.m (loadState hy (m0.t, m0.x) m1) := ⟨acc.from_t.symm, acc.from_x.symm⟩
    have := substeps_same (c := c) hh (dt := dt / 2 ^ j / sub) sub h2 (Or.inr (by omega))
    rw [hm] at this
    cases hd : substeps hy c (dt / 2 ^ j / sub) sub s.m with
    | error e => rw [hd] at this; exact this.elim
    | ok m' =>
      rw [hd] at this
      exact ⟨j, m', acc.level, acc.dt_eq, by rw [direct, if_pos hsub, hd], this.1.1, this.1.2, this.2⟩

theorem take_push {α : Type} (a : List α) (x : α) (l : List α) :
    (a ++ push x l).take 3 = ((a ++ [x]) ++ l).take 3 := by
  rcases a with _ | ⟨_, _ | ⟨_, _ | ⟨_, _⟩⟩⟩ <;> simp [push, List.take_take]

/-- **C44.** After any sequence of completed calls, the step-size and error histories hold the newest (at
most three) accepted step sizes and errors, newest first, and simulation time is the sum of all accepted
steps; rejected attempts appear in neither. -/
theorem C44_history (calls : List Call) {s s' : Sim X W} (h : simRun hy c calls s = .ok s')
    (hd : s.dts.length ≤ 3) (he : s.errs.length ≤ 3) :
    ∃ acc : List ℝ, ∃ ers : List Est, acc.length = calls.length ∧ ers.length = calls.length ∧
      s'.dts = (acc ++ s.dts).take 3 ∧ s'.errs = (ers ++ s.errs).take 3 ∧
      s'.m.t = s.m.t + acc.sum := by
  induction calls generalizing s with
  | nil =>
    cases h
    exact ⟨[], [], rfl, rfl, by simp [List.take_of_length_le hd], by simp [List.take_of_length_le he],
      by simp⟩
  | cons k rest ih =>
    simp only [simRun] at h
    cases hk : simStep hy c k.sub k.retries k.tol k.norm k.dt s with
    | error e => rw [hk] at h; cases h
    | ok s1 =>
      rw [hk] at h
      obtain ⟨j, m0, err, acc⟩ := simStep_accepted _ _ hk
      obtain ⟨ini, hrun⟩ := acc.run
      have ht : s1.m.t = s.m.t + k.dt / 2 ^ j := by rw [(attempt_ok hrun).1, acc.from_t]
      obtain ⟨a, er, h1, h2, h3, h4, h5⟩ := ih h
        (by rw [acc.dts, push]; simp) (by rw [acc.errs, push]; simp)
      refine ⟨a ++ [k.dt / 2 ^ j], er ++ [err], by simp [h1], by simp [h2], ?_, ?_, ?_⟩
      · rw [h3, acc.dts, take_push]
      · rw [h4, acc.errs, take_push]
      · rw [h5, ht]; simp; ring

/-! ### The tolerance of retries (C42) -/

/-- **C42 (partial).** The first attempt is judged with the caller's tolerance and norm: if it was
accepted although retries remained and half the step was still above `min_dt`, its error (measured in the
caller's norm) is within the caller's tolerance. An accepted *retry* is only known to be within 1 (and is
measured in norm 2): missing is the claim for retries, which the code violates
(`C42_retry_ignores_tolerance`), except when the caller's tolerance is at least 1 and the norm is 2. -/
theorem C42_partial (sub retries : ℕ) {tol : ℝ} {norm : ℤ} {dt : ℝ} {s s' : Sim X W}
    (h : simStep hy c sub retries tol norm dt s = .ok s') :
    ∃ j err, s'.errs.head? = some err ∧ s'.dt = dt / 2 ^ j ∧
      (j = retries ∨ dt / 2 ^ (j + 1) ≤ c.minDt ∨ ¬ err.rejected (if j = 0 then tol else 1)) ∧
      ((j = 0 ∨ norm = 2) → ∃ m0 ini, attempt hy c sub norm (dt / 2 ^ j) m0 = .ok (s'.m, err, ini)) := by
  obtain ⟨j, m0, err, acc⟩ := simStep_accepted sub retries h
  refine ⟨j, err, by rw [acc.errs]; rfl, acc.dt_eq, ?_, ?_⟩
  · rcases acc.good with g | g | g
    · exact Or.inl g
    · exact Or.inr (Or.inr g)
    · exact Or.inr (Or.inl g)
  · intro hj
    obtain ⟨ini, hrun⟩ := acc.run
    refine ⟨m0, ini, ?_⟩
    rcases hj with rfl | rfl
    · simpa using hrun
    · have : (if j = 0 then (2 : ℤ) else 2) = 2 := by split_ifs <;> rfl
      rw [this] at hrun; exact hrun

/-- **C42 (the defect).** After a rejected attempt the call behaves exactly as a call with half the step,
one retry less, tolerance 1 and norm 2, whatever the caller asked for. -/
theorem C42_retry_ignores_tolerance (sub r : ℕ) {tol : ℝ} {norm : ℤ} {dt : ℝ} {s : Sim X W}
    {m : Mdl X W} {err : Est} {ini : ℝ × X} (ha : attempt hy c sub norm dt s.m = .ok (m, err, ini))
    (hrej : err.rejected tol) (hmin : c.minDt < 0.5 * dt) :
    simStep hy c sub (r + 1) tol norm dt s =
      (simStep hy c sub r 1 2 (0.5 * dt)
        { record dt m err s with m := loadState hy ini m, dts := (push dt s.dts).tail,
                                 errs := (push err s.errs).tail }).bind (finish hy) := by
  simp only [simStep, ha]
  rw [if_pos ⟨hrej, hmin⟩]
  simp only [record]
  cases simStep hy c sub r 1 2 (0.5 * dt) _ <;> rfl

/-- A toy hydraulics with one head that grows by `dt²` per step: its step-doubling error is `dt²/2`
against a scale of about one for heads near 1000. -/
noncomputable def toy : Hydraulics ℝ Unit Unit where
  M := 1
  heads x _ := some x
  pass _ x _ dt _ := .ok (x + dt ^ 2, ())
  reload _ _ := ()

noncomputable def toyCfg : Cfg Unit := ⟨60, 1, 1, 1 / 10, fun _ => ()⟩

theorem toy_step (dt : ℝ) (m : Mdl ℝ Unit) :
    modelStep toy toyCfg dt m = .ok ⟨m.t + dt, m.iter + 1, m.x + dt ^ 2, (m.t, m.x), ()⟩ := by
  simp [modelStep, superStep, onePass, saveState, toy, toyCfg]

theorem toy_attempt (dt : ℝ) (m : Mdl ℝ Unit) (hx : 0 ≤ m.x) :
    ∃ m', attempt toy toyCfg 2 2 dt m = .ok (m', .val (max (dt ^ 2 / 2 / (1e-6 + (m.x + dt ^ 2 / 2) * 1e-3)) eps),
      (m.t, m.x)) := by
  have hd : (1e-6 + max (m.x + (dt / 2) ^ 2 + (dt / 2) ^ 2) (m.x + (dt / 2) ^ 2) * 1e-3 : ℝ)
      = 1e-6 + (m.x + dt ^ 2 / 2) * 1e-3 := by
    rw [max_eq_left (by nlinarith [sq_nonneg (dt / 2)])]; ring
  have hpos : (0 : ℝ) < 1e-6 + (m.x + dt ^ 2 / 2) * 1e-3 := by positivity
  have hs : scaledErr toy (m.x + dt ^ 2) (m.x + (dt / 2) ^ 2 + (dt / 2) ^ 2) (m.x + (dt / 2) ^ 2) 0
      = some (dt ^ 2 / 2 / (1e-6 + (m.x + dt ^ 2 / 2) * 1e-3)) := by
    simp only [scaledErr, toy]
    rw [hd, if_neg hpos.ne']
    congr 2; ring
  have hn : ∀ v : ℕ → Option ℝ, ∀ u : ℝ, 0 ≤ u → v 0 = some u →
      normedErr 2 toy.M v = .ok (.val (max u eps)) := by
    intro v u hu hv
    have h1 : ∀ j, j < toy.M → (v j).isSome := by
      intro j hj
      have : j = 0 := by change j < 1 at hj; omega
      rw [this, hv]; rfl
    simp only [normedErr, if_pos h1]
    norm_num [toy, hv, Real.sqrt_sq hu, abs_of_nonneg hu]
  refine ⟨⟨m.t + dt / 2 + dt / 2, m.iter + 1 + 1 + 1, m.x + (dt / 2) ^ 2 + (dt / 2) ^ 2,
    (m.t + dt / 2, m.x + (dt / 2) ^ 2), ()⟩, ?_⟩
  simp only [attempt, toy_step, substeps, loadState, Nat.one_lt_ofNat, gt_iff_lt, if_true, Nat.cast_ofNat]
  rw [hn _ _ (by positivity) hs]

/-- **C42 (violated).** A concrete run: tolerance 1/10 with five retries; the accepted (retried) step has
an error above 1/10 although four retries remain and a further halving would still be above `min_dt`. -/
theorem C42_violated : ∃ (s s' : Sim ℝ Unit) (e : ℝ),
    simStep toy toyCfg 2 5 (1 / 10) 2 1 s = .ok s' ∧ s'.errs.head? = some (.val e) ∧ 1 / 10 < e ∧
      s'.dt = 1 / 2 ∧ toyCfg.minDt < s'.dt / 2 := by
  let s : Sim ℝ Unit := ⟨⟨0, 0, 1000, (0, 1000), ()⟩, 1, [1], [.val eps], 0⟩
  have heps : eps < 1 / 10 := by unfold eps; norm_num
  obtain ⟨m1, h1⟩ := toy_attempt 1 s.m (by show (0:ℝ) ≤ 1000; norm_num)
  have hx : s.m.x = 1000 := rfl
  rw [hx] at h1
  have hrej : (Est.val (max ((1:ℝ) ^ 2 / 2 / (1e-6 + (1000 + 1 ^ 2 / 2) * 1e-3)) eps)).rejected (1 / 10) := by
    simp only [Est.rejected, gt_iff_lt, lt_max_iff]
    left; norm_num
  have hm : toyCfg.minDt < 0.5 * (1:ℝ) := by simp only [toyCfg]; norm_num
  have h2 := C42_retry_ignores_tolerance 2 4 h1 hrej hm
  obtain ⟨m2, h3⟩ := toy_attempt (0.5 * 1) (loadState toy (s.m.t, (1000:ℝ)) m1)
    (by show (0:ℝ) ≤ 1000; norm_num)
  have hx2 : (loadState toy (s.m.t, (1000:ℝ)) m1).x = 1000 := rfl
  rw [hx2] at h3
  set e : ℝ := max ((0.5 * 1 : ℝ) ^ 2 / 2 / (1e-6 + (1000 + (0.5 * 1) ^ 2 / 2) * 1e-3)) eps with he
  have hacc : ¬ (Est.val e).rejected 1 := by
    simp only [Est.rejected, gt_iff_lt, not_lt, he, max_le_iff]
    exact ⟨by norm_num, by linarith⟩
  have hlow : 1 / 10 < e := by
    rw [he, lt_max_iff]; left; norm_num
  have fin : ∀ x : ℝ, Finite toy x := by intro x j _; simp [toy]
  refine ⟨s, ?_, e, ?_, ?_, hlow, ?_, ?_⟩
  rotate_left
  · rw [h2]
    simp only [simStep, h3]
    rw [if_neg (fun hh => hacc hh.1)]
    simp only [finish, if_pos (fin _), Except.bind]
    rfl
  · rfl
  · simp only [record]; norm_num
  · simp only [record, toyCfg]; norm_num

/-! ### Error norms (C61) -/

theorem maxAbs_le (v : ℕ → ℝ) (n : ℕ) : 0 ≤ maxAbs v n ∧ ∀ j, j < n → |v j| ≤ maxAbs v n := by
  induction n with
  | zero => exact ⟨le_rfl, by omega⟩
  | succ n ih =>
    refine ⟨le_trans ih.1 (le_max_left _ _), fun j hj => ?_⟩
    rcases Nat.lt_succ_iff_lt_or_eq.mp hj with h | rfl
    · exact (ih.2 j h).trans (le_max_left _ _)
    · exact le_max_right _ _

theorem eps_pos : 0 < eps := by unfold eps; positivity

/-- **C61 (norms 2 and −1).** The normed error bounds every scaled difference between coarse and fine
solution: when it is at its floor `eps`, every scaled difference is at most `√n · eps` (norm 2),
respectively `eps` (norm −1); conversely, if they agree exactly it is at its floor. -/
theorem C61_norm2 {n : ℕ} {v : ℕ → ℝ} {e : ℝ}
    (h : normedErr 2 n (fun j => some (v j)) = .ok (.val e)) :
    (∀ j, j < n → |v j| ≤ Real.sqrt n * e) ∧ ((∀ j, j < n → v j = 0) → e = eps) := by
  simp only [normedErr, Option.isSome_some, implies_true, if_true, Option.getD_some] at h
  norm_num at h
  subst h
  constructor
  · intro j hj
    have hn : (0 : ℝ) < n := by exact_mod_cast (by omega : 0 < n)
    have h1 : v j ^ 2 ≤ ∑ i ∈ Finset.range n, v i ^ 2 :=
      Finset.single_le_sum (f := fun i => v i ^ 2) (fun i _ => sq_nonneg _) (Finset.mem_range.mpr hj)
    have h2 : |v j| ≤ Real.sqrt (∑ i ∈ Finset.range n, v i ^ 2) := Real.abs_le_sqrt h1
    have h3 : Real.sqrt (∑ i ∈ Finset.range n, v i ^ 2)
        = Real.sqrt n * (Real.sqrt (∑ i ∈ Finset.range n, v i ^ 2) / Real.sqrt n) := by
      have := (Real.sqrt_pos.mpr hn).ne'
      field_simp
    rw [h3] at h2
    refine h2.trans (mul_le_mul_of_nonneg_left ?_ (Real.sqrt_nonneg _))
    refine le_trans ?_ (le_max_left _ _)
    exact le_abs_self _
  · intro hz
    have : ∑ i ∈ Finset.range n, v i ^ 2 = 0 :=
      Finset.sum_eq_zero fun i hi => by rw [hz i (Finset.mem_range.mp hi)]; ring
    rw [this]
    simp [eps_pos.le]

theorem C61_max {n : ℕ} {v : ℕ → ℝ} {e : ℝ}
    (h : normedErr (-1) n (fun j => some (v j)) = .ok (.val e)) :
    (∀ j, j < n → |v j| ≤ e) ∧ ((∀ j, j < n → v j = 0) → e = eps) := by
  simp only [normedErr, Option.isSome_some, implies_true, if_true, Option.getD_some] at h
  norm_num at h
  subst h
  constructor
  · intro j hj
    exact ((maxAbs_le v n).2 j hj).trans ((le_abs_self _).trans (le_max_left _ _))
  · intro hz
    have : ∀ k, k ≤ n → maxAbs v k = 0 := by
      intro k hk
      induction k with
      | zero => rfl
      | succ k ih => rw [maxAbs, ih (by omega), hz k (by omega)]; simp
    rw [this n le_rfl]; simp [eps_pos.le]

/-- **C61 (violated for norm 1).** Differences of opposite sign cancel: two heads that disagree by any
amount `a` in opposite directions give an error at the floor. -/
theorem C61_norm1_cancels (a : ℝ) :
    normedErr 1 2 (fun j => some (if j = 0 then a else -a)) = .ok (.val eps) := by
  simp only [normedErr, Option.isSome_some, implies_true, if_true, Option.getD_some]
  norm_num [Finset.sum_range_succ, eps_pos.le]

/-- **C61 (violated for norm 0).** Whenever the coarse solution is nowhere above the fine one, norm 0 is at
its floor, however large the differences are. -/
theorem C61_norm0_one_sided {n : ℕ} {v : ℕ → ℝ} (h : ∀ j, j < n → v j ≤ 0) :
    normedErr 0 n (fun j => some (v j)) = .ok (.val eps) := by
  simp only [normedErr, if_true, Option.getD_some]
  have : ∑ j ∈ Finset.range n, (if v j > 0 then (1 : ℝ) else 0) = 0 :=
    Finset.sum_eq_zero fun i hi => if_neg (not_lt.mpr (h i (Finset.mem_range.mp hi)))
  rw [this]; simp [eps_pos.le]

/-- **C61 (partial).** For norm 1 the claim holds when all differences have the same sign. Missing: the
rest, by `C61_norm1_cancels`; and norm 0, by `C61_norm0_one_sided`. -/
theorem C61_norm1_partial {n : ℕ} {v : ℕ → ℝ} {e : ℝ} (hs : ∀ j, j < n → 0 ≤ v j)
    (h : normedErr 1 n (fun j => some (v j)) = .ok (.val e)) : ∀ j, j < n → |v j| ≤ n * e := by
  simp only [normedErr, Option.isSome_some, implies_true, if_true, Option.getD_some] at h
  norm_num at h
  subst h
  intro j hj
  have hn : (0 : ℝ) < n := by exact_mod_cast (by omega : 0 < n)
  have h1 : v j ≤ ∑ i ∈ Finset.range n, v i :=
    Finset.single_le_sum (f := v) (fun i hi => hs i (Finset.mem_range.mp hi)) (Finset.mem_range.mpr hj)
  rw [abs_of_nonneg (hs j hj)]
  have h2 : (∑ i ∈ Finset.range n, v i) = n * ((∑ i ∈ Finset.range n, v i) / n) := by field_simp
  rw [h2] at h1
  refine h1.trans (mul_le_mul_of_nonneg_left (le_trans ?_ (le_max_left _ _)) hn.le)
  exact le_abs_self _

/-- **C61 (`nan` is noticed).** With norms 1, 2 and −1, a head that is not finite makes the error not
finite, and the attempt is rejected whatever the tolerance. -/
theorem C61_nan {n : ℕ} {v : ℕ → Option ℝ} {j : ℕ} (hj : j < n) (hv : v j = none) {norm : ℤ}
    (hn : norm = 1 ∨ norm = 2 ∨ norm = -1) (tol : ℝ) :
    ∃ e, normedErr norm n v = .ok e ∧ e.rejected tol := by
  have hnot : ¬ ∀ j, j < n → (v j).isSome := fun h => by have := h j hj; simp [hv] at this
  refine ⟨.nan, ?_, trivial⟩
  rcases hn with rfl | rfl | rfl <;> simp [normedErr, hnot]

/-- **C61 (`nan` is not noticed by norm 0).** Heads that are not finite count as agreement: if every head is either not finite or not
above the fine one, the error is at its floor and the attempt is accepted at every positive tolerance not below the floor. -/
theorem C61_norm0_nan {n : ℕ} {v : ℕ → Option ℝ} (h : ∀ j, j < n → ∀ r, v j = some r → r ≤ 0) {tol : ℝ} (ht : eps ≤ tol) :
    ∃ e, normedErr 0 n v = .ok e ∧ ¬ e.rejected tol := by
  refine ⟨.val eps, ?_, not_lt.mpr ht⟩
  simp only [normedErr, if_true]
  have : ∑ j ∈ Finset.range n, (if (v j).getD 0 > 0 then (1 : ℝ) else 0) = 0 := by
    refine Finset.sum_eq_zero fun i hi => if_neg (not_lt.mpr ?_)
    cases hv : v i with
    | none => simp
    | some r => simpa using h i (Finset.mem_range.mp hi) r hv
  rw [this]; simp [eps_pos.le]

example : ∃ e, normedErr 0 3 (fun j => if j = 1 then none else some (-1)) = .ok e ∧ ¬ e.rejected 1 :=
  C61_norm0_nan (fun j _ r h => by
    split_ifs at h
    simp only [Option.some.injEq] at h
    linarith) (by unfold eps; norm_num)

/-! ### Step-size controllers (C43) -/

/-- **C43 (limits).** With an error estimate, the elementary controller returns a step within
`[min_dt, max_dt]`. -/
theorem C43_compute_limits {dt err minDt maxDt tol minRel maxRel safety : ℝ} (h : minDt ≤ maxDt) :
    minDt ≤ computeStepSize dt (some err) minDt maxDt tol minRel maxRel safety ∧
    computeStepSize dt (some err) minDt maxDt tol minRel maxRel safety ≤ maxDt :=
  ⟨le_min (le_max_right _ _) h, min_le_right _ _⟩

/-- **C43 (direction).** A larger error never gives a larger step. -/
theorem C43_compute_antitone {dt e e' minDt maxDt tol minRel maxRel safety : ℝ} (hdt : 0 ≤ dt)
    (hs : 0 ≤ safety) (htol : 0 ≤ tol) (he : |e| ≤ |e'|) :
    computeStepSize dt (some e') minDt maxDt tol minRel maxRel safety
      ≤ computeStepSize dt (some e) minDt maxDt tol minRel maxRel safety := by
  simp only [computeStepSize]
  have h0 : 0 < max |e| eps := lt_of_lt_of_le eps_pos (le_max_right _ _)
  have h1 : tol / 2 / max |e'| eps ≤ tol / 2 / max |e| eps :=
    div_le_div_of_nonneg_left (by positivity) h0 (max_le_max he le_rfl)
  have h2 := Real.sqrt_le_sqrt h1
  gcongr

/-- **C43 (shrinks above tolerance).** If the error exceeds the tolerance, the safety factor is at most one
and the limits on relative change allow it, the controller does not increase the step (unless the lower
limit does). -/
theorem C43_compute_shrinks {dt e minDt maxDt tol minRel maxRel safety : ℝ} (hdt : 0 ≤ dt)
    (hs : 0 ≤ safety) (hs1 : safety ≤ 1) (hr : minRel ≤ 1) (he : tol ≤ |e|)
    (hmin : minDt ≤ dt) :
    computeStepSize dt (some e) minDt maxDt tol minRel maxRel safety ≤ dt := by
  simp only [computeStepSize]
  have h0 : 0 < max |e| eps := lt_of_lt_of_le eps_pos (le_max_right _ _)
  have h1 : tol / 2 / max |e| eps ≤ 1 := by
    rw [div_le_one h0]
    have := le_max_left |e| eps
    linarith
  have h2 : Real.sqrt (tol / 2 / max |e| eps) ≤ 1 := by
    rw [Real.sqrt_le_iff]; exact ⟨zero_le_one, by simpa using h1⟩
  have h3 : min (max (Real.sqrt (tol / 2 / max |e| eps)) minRel) maxRel ≤ 1 :=
    (min_le_left _ _).trans (max_le h2 hr)
  refine (min_le_left _ _).trans (max_le ?_ hmin)
  calc safety * dt * _ ≤ safety * dt * 1 := mul_le_mul_of_nonneg_left h3 (mul_nonneg hs hdt)
    _ ≤ dt := by nlinarith

/-- **C43 (grows well below tolerance).** If the error is at most `safety² · tol / 2` and the limits on
relative change allow it, the controller does not decrease the step (unless the upper limit does). -/
theorem C43_compute_grows {dt e minDt maxDt tol minRel maxRel safety : ℝ} (hdt : 0 ≤ dt)
    (hs : 0 < safety) (he : max |e| eps ≤ safety ^ 2 * tol / 2) (hr : 1 / safety ≤ maxRel)
    (hmax : dt ≤ maxDt) :
    dt ≤ computeStepSize dt (some e) minDt maxDt tol minRel maxRel safety := by
  simp only [computeStepSize]
  have h0 : 0 < max |e| eps := lt_of_lt_of_le eps_pos (le_max_right _ _)
  have h1 : (1 / safety) ^ 2 ≤ tol / 2 / max |e| eps := by
    rw [le_div_iff₀ h0]
    calc (1 / safety) ^ 2 * max |e| eps ≤ (1 / safety) ^ 2 * (safety ^ 2 * tol / 2) :=
          mul_le_mul_of_nonneg_left he (by positivity)
      _ = tol / 2 := by field_simp
  have h2 : 1 / safety ≤ Real.sqrt (tol / 2 / max |e| eps) := Real.le_sqrt_of_sq_le h1
  have h3 : 1 / safety ≤ min (max (Real.sqrt (tol / 2 / max |e| eps)) minRel) maxRel :=
    le_min (le_max_of_le_left h2) hr
  refine le_min (le_max_of_le_left ?_) hmax
  calc dt = safety * dt * (1 / safety) := by field_simp
    _ ≤ _ := mul_le_mul_of_nonneg_left h3 (mul_nonneg hs.le hdt)

/-- **C43 (filter: limits).** Once three steps with error estimates are recorded, the filtered controller
returns a step within `[min_dt, max_dt]`, for every history and every choice of coefficients. -/
theorem C43_filter_limits {tol : ℝ} {dts : List ℝ} {e1 e2 e3 : ℝ} {q : Coeffs}
    {minDt maxDt minRel maxRel safety k : ℝ} (hl : dts.length = 3) (h : minDt ≤ maxDt) :
    ∃ r, filterStepSize tol dts [.val e1, .val e2, .val e3] q minDt maxDt minRel maxRel safety k = .ok r ∧
      minDt ≤ r ∧ r ≤ maxDt := by
  match dts, hl with
  | [a, b, d], _ => exact ⟨_, rfl, le_min (le_max_right _ _) h, min_le_right _ _⟩

/-- The elementary filter `[1, 0, 0, 0, 0]` of order 2. -/
theorem filter_elementary {tol dn dm1 dm2 en em1 em2 minDt maxDt minRel maxRel : ℝ} :
    filterStepSize tol [dn, dm1, dm2] [.val en, .val em1, .val em2] ⟨1, 0, 0, 0, 0⟩ minDt maxDt minRel
      maxRel 1 2 = .ok (min (max (min (max (Real.sqrt (tol / en)) minRel) maxRel * dn) minDt) maxDt) := by
  simp [filterStepSize, Real.sqrt_eq_rpow]

/-- **C43 (filter: direction).** With the elementary coefficients: an error below tolerance does not shrink
the step, an error above does not grow it, up to the configured limits. -/
theorem C43_filter_direction {tol dn dm1 dm2 en em1 em2 minDt maxDt minRel maxRel r : ℝ}
    (hen : 0 < en) (hdn : 0 ≤ dn) (hmin : minDt ≤ dn) (hmax : dn ≤ maxDt) (hr1 : minRel ≤ 1)
    (hr2 : 1 ≤ maxRel)
    (h : filterStepSize tol [dn, dm1, dm2] [.val en, .val em1, .val em2] ⟨1, 0, 0, 0, 0⟩ minDt maxDt minRel
      maxRel 1 2 = .ok r) : (en ≤ tol → dn ≤ r) ∧ (tol ≤ en → r ≤ dn) := by
  rw [filter_elementary] at h
  injection h with h
  subst h
  constructor
  · intro ht
    have h1 : 1 ≤ Real.sqrt (tol / en) := by
      rw [Real.one_le_sqrt, le_div_iff₀ hen]; linarith
    have h2 : 1 ≤ min (max (Real.sqrt (tol / en)) minRel) maxRel := le_min (le_max_of_le_left h1) hr2
    refine le_min (le_max_of_le_left ?_) hmax
    nlinarith
  · intro ht
    have h1 : Real.sqrt (tol / en) ≤ 1 := by
      rw [Real.sqrt_le_iff]; exact ⟨zero_le_one, by rw [one_pow, div_le_one hen]; exact ht⟩
    have h2 : min (max (Real.sqrt (tol / en)) minRel) maxRel ≤ 1 :=
      (min_le_left _ _).trans (max_le h1 hr1)
    refine (min_le_left _ _).trans (max_le ?_ hmin)
    nlinarith

/-- **C43 (filter: law).** Away from the limits the logarithm of the ratio of successive steps is the digital filter of
the logarithms of the three errors (relative to the tolerance) and of the two last step ratios that the coefficients
describe. -/
theorem C43_filter_log {tol dn dm1 dm2 en em1 em2 minDt maxDt minRel maxRel safety k r F : ℝ} {q : Coeffs}
    (htol : 0 < tol) (h0 : 0 < en) (h1 : 0 < em1) (h2 : 0 < em2) (hd0 : 0 < dn) (hd1 : 0 < dm1) (hd2 : 0 < dm2)
    (hF : F = (q.b1 * Real.log (tol / en) + q.b2 * Real.log (tol / em1) + q.b3 * Real.log (tol / em2)) / k
      - q.a2 * Real.log (dn / dm1) - q.a3 * Real.log (dm1 / dm2))
    (hr1 : minRel ≤ Real.exp F) (hr2 : Real.exp F ≤ maxRel)
    (hl1 : minDt ≤ safety * Real.exp F * dn) (hl2 : safety * Real.exp F * dn ≤ maxDt)
    (h : filterStepSize tol [dn, dm1, dm2] [.val en, .val em1, .val em2] q minDt maxDt minRel maxRel
      safety k = .ok r) : r = safety * Real.exp F * dn := by
  have hfac : (tol / en) ^ (q.b1 / k) * (tol / em1) ^ (q.b2 / k) * (tol / em2) ^ (q.b3 / k)
      * (dn / dm1) ^ (-q.a2) * (dm1 / dm2) ^ (-q.a3) = Real.exp F := by
    rw [Real.rpow_def_of_pos (div_pos htol h0), Real.rpow_def_of_pos (div_pos htol h1),
      Real.rpow_def_of_pos (div_pos htol h2), Real.rpow_def_of_pos (div_pos hd0 hd1),
      Real.rpow_def_of_pos (div_pos hd1 hd2), ← Real.exp_add, ← Real.exp_add, ← Real.exp_add, ← Real.exp_add, hF]
    congr 1
    ring
  simp only [filterStepSize, hfac, Except.ok.injEq] at h
  rw [← h, max_eq_left hr1, min_eq_left hr2, max_eq_left hl1, min_eq_left hl2]

/-- **C43 (filter: a larger latest error never gives a larger step),** for every filter with a non-negative
first coefficient (all recommended ones). -/
theorem C43_filter_antitone {tol dn dm1 dm2 en en' em1 em2 minDt maxDt minRel maxRel safety k r r' : ℝ}
    {q : Coeffs} (hq : 0 ≤ q.b1) (hk : 0 < k) (htol : 0 < tol) (hen : 0 < en) (hle : en ≤ en')
    (h1 : 0 < em1) (h2 : 0 < em2) (hd0 : 0 < dn) (hd1 : 0 < dm1) (hd2 : 0 < dm2) (hs : 0 ≤ safety)
    (h : filterStepSize tol [dn, dm1, dm2] [.val en, .val em1, .val em2] q minDt maxDt minRel maxRel
      safety k = .ok r)
    (h' : filterStepSize tol [dn, dm1, dm2] [.val en', .val em1, .val em2] q minDt maxDt minRel maxRel
      safety k = .ok r') : r' ≤ r := by
  simp only [filterStepSize, Except.ok.injEq] at h h'
  subst h h'
  have hb : (tol / en') ^ (q.b1 / k) ≤ (tol / en) ^ (q.b1 / k) :=
    Real.rpow_le_rpow (div_pos htol (hen.trans_le hle)).le
      (div_le_div_of_nonneg_left htol.le hen hle) (div_nonneg hq hk.le)
  have p1 : 0 ≤ (tol / em1) ^ (q.b2 / k) := (Real.rpow_pos_of_pos (div_pos htol h1) _).le
  have p2 : 0 ≤ (tol / em2) ^ (q.b3 / k) := (Real.rpow_pos_of_pos (div_pos htol h2) _).le
  have p3 : 0 ≤ (dn / dm1) ^ (-q.a2) := (Real.rpow_pos_of_pos (div_pos hd0 hd1) _).le
  have p4 : 0 ≤ (dm1 / dm2) ^ (-q.a3) := (Real.rpow_pos_of_pos (div_pos hd1 hd2) _).le
  gcongr

/-- The hypotheses of C41 are met by the toy hydraulics, and C42's run is a completed call with a retry. -/
example : NoHidden toy ∧ ∃ s s', simStep toy toyCfg 2 5 (1 / 10) 2 1 s = .ok s' := by
  refine ⟨fun p x w w' dt inp => rfl, ?_⟩
  obtain ⟨s, s', e, h, -⟩ := C42_violated
  exact ⟨s, s', h⟩

/-- **C43 (no estimate, no controller).** After three or more steps without error estimation
(`subdivisions=1`), the filtered controller raises a `TypeError` instead of returning a step. -/
theorem C43_filter_raises {s s' : Sim X W} (calls : List Call) (hlen : 3 ≤ calls.length)
    (hsub : ∀ k ∈ calls, k.sub ≤ 1) (h : simRun hy c calls s = .ok s') (tol : ℝ) (q : Coeffs)
    (minDt maxDt minRel maxRel safety k : ℝ) :
    filterStepSize tol s'.dts s'.errs q minDt maxDt minRel maxRel safety k = .error (.py .typeError) := by
  -- every call without subdivisions pushes `None`
  have key : ∀ (calls : List Call) (s s' : Sim X W), (∀ k ∈ calls, k.sub ≤ 1) →
      simRun hy c calls s = .ok s' →
      (∃ acc, acc.length = calls.length ∧ s'.dts.take 3 = (acc ++ s.dts).take 3) ∧
      s'.errs.take 3 = (List.replicate calls.length Est.none ++ s.errs).take 3 := by
    intro calls
    induction calls with
    | nil => intro s s' _ h; cases h; exact ⟨⟨[], rfl, by simp⟩, by simp⟩
    | cons a rest ih =>
      intro s s' hs h
      simp only [simRun] at h
      cases hk : simStep hy c a.sub a.retries a.tol a.norm a.dt s with
      | error e => rw [hk] at h; cases h
      | ok s1 =>
        rw [hk] at h
        obtain ⟨j, m0, err, acc⟩ := simStep_accepted _ _ hk
        obtain ⟨ini, hrun⟩ := acc.run
        have herr : err = .none := by
          rcases (attempt_ok hrun).2.2 with ⟨-, -, he⟩ | ⟨hsub, -⟩
          · exact he
          · have := hs a (by simp); omega
        obtain ⟨⟨l, hl, hd⟩, he⟩ := ih s1 s' (fun k hk => hs k (by simp [hk])) h
        refine ⟨⟨l ++ [a.dt / 2 ^ j], by simp [hl], ?_⟩, ?_⟩
        · rw [hd, acc.dts, take_push]
        · rw [he, acc.errs, take_push, herr]
          congr 2
          rw [List.length_cons, List.replicate_succ']
  obtain ⟨⟨acc, hl, hd⟩, he⟩ := key calls s s' hsub h
  have hlast : s'.dts.length ≤ 3 ∧ s'.errs.length ≤ 3 := by
    clear hd he hl
    have : calls ≠ [] := by rintro rfl; simp at hlen
    clear hlen
    induction calls generalizing s with
    | nil => exact absurd rfl this
    | cons a rest ih =>
      simp only [simRun] at h
      cases hk : simStep hy c a.sub a.retries a.tol a.norm a.dt s with
      | error e => rw [hk] at h; cases h
      | ok s1 =>
        rw [hk] at h
        rcases rest with _ | ⟨b, rest⟩
        · cases h
          obtain ⟨j, m0, err, acc⟩ := simStep_accepted _ _ hk
          rw [acc.dts, acc.errs]; simp [push]
        · exact ih (fun k hk => hsub k (by simp [hk])) h (by simp)
  rw [List.take_of_length_le hlast.1] at hd
  rw [List.take_of_length_le hlast.2] at he
  obtain ⟨n, hn⟩ : ∃ n, calls.length = n + 3 := ⟨calls.length - 3, by omega⟩
  rw [hn, show n + 3 = ((n + 1) + 1) + 1 by omega, List.replicate_succ, List.replicate_succ,
    List.replicate_succ] at he
  rw [hn] at hl
  match acc, hl with
  | x :: y :: z :: acc, _ =>
    rw [hd, he]
    simp [filterStepSize]

end Pipedream.Driver
