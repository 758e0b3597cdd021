import Verif.DriverProps

/-!
# What the tolerance and the counter of a simulation tell (C215)

A call of `Simulation.step` that rejects its first attempt does not depend any more on the tolerance and
the norm it was called with, and `_iter_count` counts attempts, not steps.
-/

namespace Pipedream.Driver

variable {X W I : Type} {hy : Hydraulics X W I} {c : Cfg I}

/-- The norm only enters the error: two attempts of the same size from the same model leave the same model
and the same state to return to. -/
theorem attempt_norm {sub : ℕ} {norm norm' : ℤ} {dt : ℝ} {m m1 m2 : Mdl X W} {e1 e2 : Est} {i1 i2 : ℝ × X}
    (h1 : attempt hy c sub norm dt m = .ok (m1, e1, i1))
    (h2 : attempt hy c sub norm' dt m = .ok (m2, e2, i2)) : m1 = m2 ∧ i1 = i2 := by
  obtain ⟨-, a1, b1⟩ := attempt_ok h1
  obtain ⟨-, a2, b2⟩ := attempt_ok h2
  refine ⟨?_, a1.trans a2.symm⟩
  rcases b1 with ⟨n1, p1, -⟩ | ⟨n1, q1, p1, r1, -⟩ <;> rcases b2 with ⟨n2, p2, -⟩ | ⟨n2, q2, p2, r2, -⟩
  · rw [p1] at p2; cases p2; rfl
  · exact absurd n2 n1
  · exact absurd n1 n2
  · rw [p1] at p2; cases p2
    rw [r1] at r2; cases r2; rfl

theorem push_any_tail {α : Type} (a b : α) (l : List α) : (push a l).tail = (push b l).tail := by
  simp [push]

/-- **C215 (rejected calls forget their tolerance).** Two calls from the same state which differ in
tolerance and norm, and which both reject their first attempt, have the same outcome: the same state,
histories and counter, or the same exception. -/
theorem C215_forgets (sub r : ℕ) {tol tol' : ℝ} {norm norm' : ℤ} {dt : ℝ} {s : Sim X W}
    {m m' : Mdl X W} {e e' : Est} {i i' : ℝ × X}
    (h : attempt hy c sub norm dt s.m = .ok (m, e, i)) (h' : attempt hy c sub norm' dt s.m = .ok (m', e', i'))
    (hr : e.rejected tol) (hr' : e'.rejected tol') (hmin : c.minDt < 0.5 * dt) :
    simStep hy c sub (r + 1) tol norm dt s = simStep hy c sub (r + 1) tol' norm' dt s := by
  rw [C42_retry_ignores_tolerance sub r h hr hmin, C42_retry_ignores_tolerance sub r h' hr' hmin]
  obtain ⟨rfl, rfl⟩ := attempt_norm h h'
  simp only [record, push_any_tail e e' s.errs]

/-- **C215 (the counter counts attempts).** A completed call whose step was halved `j` times adds `j + 1`
to the counter. -/
theorem C215_attempts (sub retries : ℕ) {tol : ℝ} {norm : ℤ} {dt : ℝ} {s s' : Sim X W}
    (h : simStep hy c sub retries tol norm dt s = .ok s') :
    ∃ j ≤ retries, s'.iter = s.iter + j + 1 ∧ s'.dt = dt / 2 ^ j ∧ s'.m.t = s.m.t + dt / 2 ^ j := by
  induction retries generalizing tol norm dt s s' with
  | zero =>
    simp only [simStep] at h
    cases ha : attempt hy c sub norm dt s.m with
    | error e => rw [ha] at h; cases h
    | ok q =>
      obtain ⟨m, err, ini⟩ := q
      rw [ha] at h
      obtain ⟨-, rfl⟩ := finish_ok h
      exact ⟨0, le_rfl, rfl, by simp [record], by simpa [record] using (attempt_ok ha).1⟩
  | succ r ih =>
    simp only [simStep] at h
    cases ha : attempt hy c sub norm dt s.m with
    | error e => rw [ha] at h; cases h
    | ok q =>
      obtain ⟨m, err, ini⟩ := q
      rw [ha] at h
      simp only at h
      by_cases hr : err.rejected tol ∧ 0.5 * dt > c.minDt
      · rw [if_pos hr] at h
        cases hs : simStep hy c sub r 1 2 (0.5 * dt)
            { record dt m err s with m := loadState hy ini m, dts := (record dt m err s).dts.tail,
                                     errs := (record dt m err s).errs.tail } with
        | error e => rw [hs] at h; cases h
        | ok s2 =>
          rw [hs] at h
          obtain ⟨-, rfl⟩ := finish_ok h
          obtain ⟨j, hj, a1, a2, a3⟩ := ih hs
          have e1 : 0.5 * dt / 2 ^ j = dt / 2 ^ (j + 1) := by rw [pow_succ]; field_simp; ring
          obtain ⟨-, hini, -⟩ := attempt_ok ha
          refine ⟨j + 1, by omega, ?_, by rw [← e1]; exact a2, ?_⟩
          · show s2.iter + 1 = _
            rw [a1]; simp only [record]; omega
          · show s2.m.t = _
            rw [a3, e1, hini]; rfl
      · rw [if_neg hr] at h
        obtain ⟨-, rfl⟩ := finish_ok h
        exact ⟨0, by omega, rfl, by simp [record], by simpa [record] using (attempt_ok ha).1⟩

/-- **C215 (runs).** After any calls, the counter exceeds the number of calls by the number of halvings,
and the clock has advanced by the halved steps. -/
theorem C215_run (ks : List Call) {s s' : Sim X W} (h : simRun hy c ks s = .ok s') :
    ∃ js : List ℕ, js.length = ks.length ∧ s'.iter = s.iter + ks.length + js.sum ∧
      s'.m.t = s.m.t + (List.zipWith (fun (k : Call) (j : ℕ) => k.dt / 2 ^ j) ks js).sum := by
  induction ks generalizing s with
  | nil => cases h; exact ⟨[], rfl, by simp, by simp⟩
  | cons k ks ih =>
    simp only [simRun] at h
    cases hs : simStep hy c k.sub k.retries k.tol k.norm k.dt s with
    | error e => rw [hs] at h; cases h
    | ok s1 =>
      rw [hs] at h
      obtain ⟨js, h1, h2, h3⟩ := ih h
      obtain ⟨j, -, a1, -, a3⟩ := C215_attempts _ _ hs
      refine ⟨j :: js, by simp [h1], ?_, ?_⟩
      · rw [h2, a1]; simp only [List.length_cons, List.sum_cons]; omega
      · rw [h3, a3]; simp only [List.zipWith_cons_cons, List.sum_cons]; ring

/-- **C215 (full steps).** The counter equals the number of completed calls exactly if no step was
shortened: for positive requested steps, exactly if the clock advanced by their sum. -/
theorem C215_full_iff (ks : List Call) {s s' : Sim X W} (hp : ∀ k ∈ ks, 0 < k.dt)
    (h : simRun hy c ks s = .ok s') :
    s'.iter = s.iter + ks.length ↔ s'.m.t = s.m.t + (ks.map Call.dt).sum := by
  obtain ⟨js, h1, h2, h3⟩ := C215_run ks h
  have key : ∀ (ks : List Call) (js : List ℕ), js.length = ks.length → (∀ k ∈ ks, 0 < k.dt) →
      (List.zipWith (fun (k : Call) (j : ℕ) => k.dt / 2 ^ j) ks js).sum ≤ (ks.map Call.dt).sum ∧
      (js.sum = 0 ↔
        (List.zipWith (fun (k : Call) (j : ℕ) => k.dt / 2 ^ j) ks js).sum = (ks.map Call.dt).sum) := by
    intro ks
    induction ks with
    | nil => intro js hl _; rw [List.length_nil, List.length_eq_zero_iff] at hl; subst hl; simp
    | cons k ks ih =>
      intro js hl hp
      rcases js with _ | ⟨j, js⟩
      · simp at hl
      obtain ⟨i1, i2⟩ := ih js (by simpa using hl) (fun x hx => hp x (List.mem_cons_of_mem _ hx))
      have hk := hp k (List.mem_cons_self ..)
      simp only [List.zipWith_cons_cons, List.sum_cons, List.map_cons]
      have hle : k.dt / 2 ^ j ≤ k.dt := div_le_self hk.le (one_le_pow₀ (by norm_num))
      refine ⟨add_le_add hle i1, ?_, ?_⟩
      · intro h0
        have hj : j = 0 := by omega
        have hs : js.sum = 0 := by omega
        rw [i2.1 hs, hj]; simp
      · intro he
        have hs := i2.2 (le_antisymm i1 (by linarith))
        rcases Nat.eq_zero_or_pos j with rfl | hj
        · simp [hs]
        · have : k.dt / 2 ^ j < k.dt := div_lt_self hk (one_lt_pow₀ (by norm_num) (by omega))
          linarith
  rw [h2, h3, add_right_inj, ← (key ks js h1 hp).2]
  omega

/-- The hypotheses can be met: in the run of `C42_violated` (tolerance 1/10, five retries) the first
attempt is rejected, the step is halved once and the counter is 2 after one call. -/
example : ∃ s s' : Sim ℝ Unit, simRun toy toyCfg [⟨2, 5, 1 / 10, 2, 1⟩] s = .ok s' ∧
    s'.iter ≠ s.iter + 1 := by
  obtain ⟨s, s', e, h, -, -, hd, -⟩ := C42_violated
  refine ⟨s, s', by simp only [simRun, h], ?_⟩
  obtain ⟨j, -, a1, a2, -⟩ := C215_attempts _ _ h
  rcases Nat.eq_zero_or_pos j with rfl | hj
  · rw [hd] at a2; norm_num at a2
  · omega

end Pipedream.Driver
