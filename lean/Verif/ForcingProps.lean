import Verif.RecordModel
import Verif.DriverProps
import Verif.InterpProps
import Mathlib.Analysis.SpecialFunctions.Integrals.Basic

/-!
# C87, C88, C89, C90: when inputs are sampled, how much inflow arrives, progress bar, spin-up
-/

namespace Pipedream.Record

open Pipedream.Driver Pipedream.Interp Pipedream.Link

set_option linter.unusedSectionVars false

variable {X W I Var V : Type} {hy : Hydraulics X W I} {c : Cfg I}

/-! ### C87: inputs are those at the end of each (sub)step -/

/-- **C87.** Every hydraulic solve of a step — all iterations of it — is done with the inputs at the time
the step reaches. -/
theorem C87_step_input {dt : ℝ} {m m' : Mdl X W} (h : modelStep hy c dt m = .ok m') :
    m'.t = m.t + dt ∧
    ∃ e xs ws, 1 ≤ e ∧ Chain hy m.x dt (c.forcing m'.t) m.x m'.x m.w e xs ws := by
  have ht := (modelStep_ok h).1
  refine ⟨ht, ?_⟩
  unfold modelStep at h
  cases hs : superStep hy c.dflt (some dt) c.numIter c.headTol (c.forcing (m.t + dt)) m with
  | error e => rw [hs] at h; cases h
  | ok r =>
    rw [hs] at h; cases h
    obtain ⟨-, -, -, h1, -, xs, ws, hc, -⟩ := C46_step (s' := r.1) (e := r.2) hs
    rw [ht]
    exact ⟨r.2, xs, ws, h1, hc⟩

/-- The same settings with other inputs. -/
def withForcing (c : Cfg I) (g : ℝ → I) : Cfg I := { c with forcing := g }

theorem modelStep_congr (g : ℝ → I) {dt : ℝ} {m : Mdl X W} (h : g (m.t + dt) = c.forcing (m.t + dt)) :
    modelStep hy (withForcing c g) dt m = modelStep hy c dt m := by
  simp only [modelStep, withForcing, h]

theorem substeps_congr (g : ℝ → I) {dt : ℝ} (n : ℕ) {m : Mdl X W}
    (h : ∀ i : ℕ, 1 ≤ i → i ≤ n → g (m.t + i * dt) = c.forcing (m.t + i * dt)) :
    substeps hy (withForcing c g) dt n m = substeps hy c dt n m := by
  induction n generalizing m with
  | zero => rfl
  | succ n ih =>
    simp only [substeps]
    rw [modelStep_congr g (by simpa using h 1 le_rfl (by omega))]
    cases hs : modelStep hy c dt m with
    | error e => rfl
    | ok m' =>
      apply ih
      intro i h1 h2
      have := h (i + 1) (by omega) (by omega)
      rw [(modelStep_ok hs).1]
      push_cast at this
      rwa [show m.t + dt + i * dt = m.t + (i + 1) * dt by ring]

theorem attempt_congr (g : ℝ → I) {sub : ℕ} {norm : ℤ} {dt : ℝ} {m : Mdl X W}
    (h0 : g (m.t + dt) = c.forcing (m.t + dt))
    (h : ∀ i : ℕ, 1 ≤ i → i ≤ sub → g (m.t + i * (dt / sub)) = c.forcing (m.t + i * (dt / sub))) :
    attempt hy (withForcing c g) sub norm dt m = attempt hy c sub norm dt m := by
  simp only [attempt]
  rw [modelStep_congr g h0]
  cases hs : modelStep hy c dt m with
  | error e => rfl
  | ok m1 =>
    simp only
    rw [substeps_congr g sub (by
      intro i h1 h2
      simp only [loadState, (modelStep_ok hs).2]
      exact h i h1 h2)]

/-- **C87.** `Simulation.step` looks at its inputs only at the ends of its (sub)steps, at every level of
retry: inputs that agree at the times `t + dt/2^j` and `t + i·(dt/2^j)/subdivisions` give the same result,
whatever they are in between. -/
theorem C87_only_end_times (g : ℝ → I) (sub retries : ℕ) {tol : ℝ} {norm : ℤ} {dt : ℝ} {s : Sim X W}
    (h0 : ∀ j, j ≤ retries → g (s.m.t + dt / 2 ^ j) = c.forcing (s.m.t + dt / 2 ^ j))
    (h : ∀ j, j ≤ retries → ∀ i : ℕ, 1 ≤ i → i ≤ sub →
      g (s.m.t + i * (dt / 2 ^ j / sub)) = c.forcing (s.m.t + i * (dt / 2 ^ j / sub))) :
    simStep hy (withForcing c g) sub retries tol norm dt s = simStep hy c sub retries tol norm dt s := by
  induction retries generalizing tol norm dt s with
  | zero =>
    simp only [simStep]
    rw [attempt_congr g (by simpa using h0 0 le_rfl) (by simpa using h 0 le_rfl)]
  | succ r ih =>
    have ha : attempt hy (withForcing c g) sub norm dt s.m = attempt hy c sub norm dt s.m :=
      attempt_congr g (by simpa using h0 0 (by omega)) (by simpa using h 0 (by omega))
    simp only [simStep]
    rw [ha]
    cases hat : attempt hy c sub norm dt s.m with
    | error e => rfl
    | ok p =>
      obtain ⟨m, err, ini⟩ := p
      have hini : ini = (s.m.t, s.m.x) := (attempt_ok hat).2.1
      simp only
      have hh : ∀ j : ℕ, (0.5 * dt) / 2 ^ j = dt / 2 ^ (j + 1) := by
        intro j; rw [pow_succ]; field_simp; norm_num; ring
      rw [ih (tol := 1) (norm := 2) (dt := 0.5 * dt)
        (s := ⟨loadState hy ini m, (record dt m err s).dt, (record dt m err s).dts.tail,
          (record dt m err s).errs.tail, (record dt m err s).iter⟩)]
      · rfl
      · intro j hj
        simp only [loadState, hini, hh]
        exact h0 (j + 1) (by omega)
      · intro j hj i h1 h2
        simp only [loadState, hini, hh]
        exact h (j + 1) (by omega) i h1 h2

/-- **C87.** A value given as keyword argument is used for every substep; otherwise a table is sampled, and
at a recorded time the recorded row is used; without either the input is `None`. -/
theorem C87_source (method : Method) (kw : Option (ℕ → ℝ)) (tbl : Option Table) (t : ℝ) :
    (∀ v, kw = some v → inputAt method kw tbl t = some v) ∧
    (kw = none → tbl = none → inputAt method kw tbl t = none) ∧
    (∀ T i, kw = none → tbl = some T → Sorted T.n T.time → i < T.n → t = T.time i →
      inputAt method kw tbl t = some (T.val i)) := by
  refine ⟨?_, ?_, ?_⟩
  · rintro v rfl; rfl
  · rintro rfl rfl; rfl
  · rintro T i rfl rfl hs hi rfl
    simp only [inputAt, Option.some.injEq]
    funext j
    exact C38_sample_reproduced method hs hi

/-- The row of `tbl` at a recorded time `t`. -/
def RowAt (tbl : Option Table) (t : ℝ) (v : ℕ → ℝ) : Prop :=
  ∃ T i, tbl = some T ∧ Sorted T.n T.time ∧ i < T.n ∧ t = T.time i ∧ v = T.val i

/-- **C87.** Each of the three inputs of a step comes from its own keyword argument and its own table:
inflow of superjunctions from `Q_in`, boundary heads from `H_bc`, inflow of junctions from `Q_Ik`. -/
theorem C87_own_table (method : Method) (kw : Inp) (tQ tH tI : Option Table) (t : ℝ) :
    ((∀ v, kw.Q_in = some v → (forcing method kw tQ tH tI t).Q_in = some v) ∧
     (∀ v, kw.H_bc = some v → (forcing method kw tQ tH tI t).H_bc = some v) ∧
     (∀ v, kw.Q_Ik = some v → (forcing method kw tQ tH tI t).Q_Ik = some v)) ∧
    ((kw.Q_in = none → ∀ v, RowAt tQ t v → (forcing method kw tQ tH tI t).Q_in = some v) ∧
     (kw.H_bc = none → ∀ v, RowAt tH t v → (forcing method kw tQ tH tI t).H_bc = some v) ∧
     (kw.Q_Ik = none → ∀ v, RowAt tI t v → (forcing method kw tQ tH tI t).Q_Ik = some v)) ∧
    ((kw.Q_in = none → tQ = none → (forcing method kw tQ tH tI t).Q_in = none) ∧
     (kw.H_bc = none → tH = none → (forcing method kw tQ tH tI t).H_bc = none) ∧
     (kw.Q_Ik = none → tI = none → (forcing method kw tQ tH tI t).Q_Ik = none)) := by
  have key : ∀ (k : Option (ℕ → ℝ)) (T : Option Table), k = none → ∀ v, RowAt T t v →
      inputAt method k T t = some v := by
    rintro k T hk v ⟨T', i, hT, hs, hi, ht, rfl⟩
    exact (C87_source method k T t).2.2 T' i hk hT hs hi ht
  exact ⟨⟨(C87_source _ _ _ _).1, (C87_source _ _ _ _).1, (C87_source _ _ _ _).1⟩,
    ⟨key _ _, key _ _, key _ _⟩,
    ⟨(C87_source _ _ _ _).2.1, (C87_source _ _ _ _).2.1, (C87_source _ _ _ _).2.1⟩⟩

/-- Non-vacuity: a boundary table with two rows, sampled at the second while an inflow is given by
keyword. -/
example : (forcing .linear ⟨some fun _ => 3, none, none⟩ none
    (some ⟨2, fun i => i, fun i j => 10 * (i : ℝ) + (j : ℝ)⟩) none 1).H_bc
      = some fun j : ℕ => 10 * 1 + (j : ℝ) := by
  refine (C87_own_table _ _ _ _ _ _).2.1.2.1 rfl _ ⟨_, 1, rfl, ?_, by norm_num, by norm_num, by norm_num⟩
  intro i j hij hj
  exact Nat.cast_lt.mpr hij

/-! ### C88: how much of the prescribed inflow arrives -/

/-- Inflow to superjunction `j`; `None` means no inflow (nsuperlink.py 1215–1216). -/
noncomputable def inflow (inp : Inp) (j : ℕ) : ℝ := ((inp.Q_in).map fun q => q j).getD 0

/-- A hydraulics with a water meter at superjunction `j`: the volume `dt · Q_in[j]` each step takes in,
added to the reading saved before the step. Everything else is `hy`. -/
noncomputable def metered (hy : Hydraulics X W Inp) (j : ℕ) : Hydraulics (X × ℝ) W Inp where
  M := hy.M
  heads x := hy.heads x.1
  pass saved cur w dt inp :=
    match hy.pass saved.1 cur.1 w dt inp with
    | .ok (x, w) => .ok ((x, saved.2 + dt * inflow inp j), w)
    | .error e => .error e
  reload x w := hy.reload x.1 w

theorem metered_pass {hy : Hydraulics X W Inp} {j : ℕ} {sv cur x : X × ℝ} {w w' : W} {dt : ℝ} {inp : Inp}
    (h : (metered hy j).pass sv cur w dt inp = .ok (x, w')) :
    x.2 = sv.2 + dt * inflow inp j ∧ hy.pass sv.1 cur.1 w dt inp = .ok (x.1, w') := by
  simp only [metered] at h
  cases hp : hy.pass sv.1 cur.1 w dt inp with
  | error e => rw [hp] at h; cases h
  | ok p => rw [hp] at h; cases h; exact ⟨rfl, rfl⟩

theorem metered_step {hy : Hydraulics X W Inp} {j : ℕ} {c : Cfg Inp} {dt : ℝ} {m m' : Mdl (X × ℝ) W}
    (h : modelStep (metered hy j) c dt m = .ok m') :
    m'.x.2 = m.x.2 + dt * inflow (c.forcing m'.t) j := by
  obtain ⟨-, e, xs, ws, he, hc⟩ := C87_step_input h
  have := hc.solve (e - 1) (by omega)
  rw [show e - 1 + 1 = e by omega, hc.stop] at this
  exact (metered_pass this).1

/-- A run of `n` plain steps of size `dt`. -/
def plain (n : ℕ) (tol : ℝ) (norm : ℤ) (dt : ℝ) : List Call := List.replicate n ⟨1, 0, tol, norm, dt⟩

/-- **C88 (what is delivered).** A run of `n` steps of size `dt` takes in `Σ dt · Q(t₀ + (i+1)·dt)`. -/
theorem C88_delivered_partial {hy : Hydraulics X W Inp} {j : ℕ} {c : Cfg Inp} {dt tol : ℝ} {norm : ℤ}
    (n : ℕ) {s s' : Sim (X × ℝ) W} (h : simRun (metered hy j) c (plain n tol norm dt) s = .ok s') :
    s'.m.t = s.m.t + n * dt ∧
    s'.m.x.2 = s.m.x.2 + ∑ i ∈ Finset.range n, dt * inflow (c.forcing (s.m.t + (i + 1 : ℕ) * dt)) j := by
  induction n generalizing s with
  | zero => cases h; simp
  | succ n ih =>
    simp only [plain, List.replicate_succ, simRun] at h
    cases hs : simStep (metered hy j) c 1 0 tol norm dt s with
    | error e => rw [hs] at h; cases h
    | ok s1 =>
      rw [hs] at h
      obtain ⟨h1, h2⟩ := ih h
      have hm : modelStep (metered hy j) c dt s.m = .ok s1.m := by
        obtain ⟨jj, m0, err, acc⟩ := simStep_accepted _ _ hs
        have hj : jj = 0 := by have := acc.level; omega
        subst hj
        obtain ⟨ini, hrun⟩ := acc.run
        rw [acc.first rfl] at hrun
        rcases (attempt_ok hrun).2.2 with ⟨-, hh, -⟩ | ⟨hh, -⟩
        · simpa using hh
        · omega
      have ht := (modelStep_ok hm).1
      refine ⟨by rw [h1, ht]; push_cast; ring, ?_⟩
      rw [h2, metered_step hm, Finset.sum_range_succ', ht]
      simp only [Nat.zero_add, Nat.cast_one, one_mul]
      rw [add_assoc, add_comm (dt * _)]
      congr 2
      refine Finset.sum_congr rfl fun i _ => ?_
      congr 3
      push_cast; ring_nf

/-- The prescribed inflow: the piecewise linear function through the samples. -/
noncomputable def series (T : Table) (j : ℕ) (t : ℝ) : ℝ :=
  interpolate .linear T.n T.time (fun i => T.val i j) t

/-- Between two samples the prescribed inflow is affine, so over an interval inside it its integral is the
trapezium. -/
theorem series_integral {T : Table} {j i : ℕ} (hs : Sorted T.n T.time) (hi : i + 1 < T.n) {a b : ℝ}
    (hab : a ≤ b) (ha : T.time i ≤ a) (hb : b ≤ T.time (i + 1)) :
    IntervalIntegrable (series T j) MeasureTheory.volume a b ∧
    ∫ x in a..b, series T j x = (b - a) * (series T j a + series T j b) / 2 := by
  set p := (T.val (i + 1) j - T.val i j) / (T.time (i + 1) - T.time i) with hp
  have hf : ∀ x, a ≤ x → x ≤ b → series T j x = T.val i j + p * (x - T.time i) := by
    intro x hx hx'
    have := C38_linear_chord (fp := fun i => T.val i j) hs hi (ha.trans hx) (hx'.trans hb)
    simp only [series]
    rw [this, hp]; ring
  have hcont : Continuous fun x : ℝ => T.val i j + p * (x - T.time i) := by fun_prop
  have hint := hcont.intervalIntegrable (μ := MeasureTheory.volume) a b
  refine ⟨?_, ?_⟩
  · refine hint.congr ?_
    intro x hx
    rw [Set.uIoc_of_le hab] at hx
    exact (hf x hx.1.le hx.2).symm
  · rw [intervalIntegral.integral_congr (g := fun x => T.val i j + p * (x - T.time i)) (by
      intro x hx
      rw [Set.uIcc_of_le hab] at hx
      exact hf x hx.1 hx.2)]
    rw [hf a le_rfl hab, hf b hab le_rfl]
    have h1 : ∀ x : ℝ, T.val i j + p * (x - T.time i) = (T.val i j - p * T.time i) + p * x := by
      intro x; ring
    simp only [h1]
    rw [intervalIntegral.integral_add (by simp) (by
      exact (continuous_const.mul continuous_id).intervalIntegrable a b)]
    have h2 : ∫ x in a..b, p * x = p * ((b ^ 2 - a ^ 2) / 2) := by
      rw [intervalIntegral.integral_const_mul, integral_id]
    rw [h2, intervalIntegral.integral_const, smul_eq_mul]
    ring

/-- **C88 (how far off).** When every step lies between two neighbouring samples, the volume taken in
differs from the volume prescribed over the run by exactly `dt/2 · (Q(t_end) − Q(t_start))`: nothing is
lost if the series ends at the value it began with. -/
theorem C88_difference_partial {hy : Hydraulics X W Inp} {j : ℕ} {c : Cfg Inp} {T : Table} {kH kI}
    {tH tI : Option Table} (hc : c.forcing = forcing .linear ⟨none, kH, kI⟩ (some T) tH tI)
    (hs : Sorted T.n T.time) {dt tol : ℝ} (hdt : 0 ≤ dt) {norm : ℤ} (n : ℕ) {s s' : Sim (X × ℝ) W}
    (hgrid : ∀ i : ℕ, i < n → ∃ k, k + 1 < T.n ∧ T.time k ≤ s.m.t + i * dt ∧
      s.m.t + (i + 1 : ℕ) * dt ≤ T.time (k + 1))
    (h : simRun (metered hy j) c (plain n tol norm dt) s = .ok s') :
    (s'.m.x.2 - s.m.x.2) - ∫ x in s.m.t..s'.m.t, series T j x
      = dt / 2 * (series T j s'.m.t - series T j s.m.t) := by
  obtain ⟨h1, h2⟩ := C88_delivered_partial n h
  have hq : ∀ t, inflow (c.forcing t) j = series T j t := by
    intro t; rw [hc]; rfl
  set τ : ℕ → ℝ := fun i => s.m.t + i * dt with hτ
  have hstep : ∀ i, i < n → IntervalIntegrable (series T j) MeasureTheory.volume (τ i) (τ (i + 1)) ∧
      ∫ x in τ i..τ (i + 1), series T j x = dt * (series T j (τ i) + series T j (τ (i + 1))) / 2 := by
    intro i hi
    obtain ⟨k, hk, ha, hb⟩ := hgrid i hi
    have hd : τ (i + 1) - τ i = dt := by simp only [hτ]; push_cast; ring
    have := series_integral (j := j) hs hk (a := τ i) (b := τ (i + 1)) (by linarith) ha hb
    rwa [hd] at this
  have hsum : ∫ x in s.m.t..s'.m.t, series T j x
      = ∑ i ∈ Finset.range n, dt * (series T j (τ i) + series T j (τ (i + 1))) / 2 := by
    have e0 : s.m.t = τ 0 := by simp [hτ]
    have e1 : s'.m.t = τ n := by simp [hτ, h1]
    rw [e0, e1, ← intervalIntegral.sum_integral_adjacent_intervals (fun k hk => (hstep k hk).1)]
    exact Finset.sum_congr rfl fun i hi => (hstep i (Finset.mem_range.1 hi)).2
  have htel : ∑ i ∈ Finset.range n, (series T j (τ (i + 1)) - series T j (τ i))
      = series T j s'.m.t - series T j s.m.t := by
    rw [Finset.sum_range_sub (fun i => series T j (τ i))]
    simp [hτ, h1]
  rw [hsum, h2, ← htel, Finset.mul_sum, add_sub_cancel_left, ← Finset.sum_sub_distrib]
  refine Finset.sum_congr rfl fun i _ => ?_
  rw [hq]
  simp only [hτ]
  ring

/-- **C88 (violated).** Inflow that is prescribed only between two step ends does not arrive at all: if the
series vanishes at all ends of steps, the run takes in nothing, however large the series is elsewhere. -/
theorem C88_missed {hy : Hydraulics X W Inp} {j : ℕ} {c : Cfg Inp} {T : Table} {kH kI}
    {tH tI : Option Table} (hc : c.forcing = forcing .linear ⟨none, kH, kI⟩ (some T) tH tI)
    {dt tol : ℝ} {norm : ℤ} (n : ℕ) {s s' : Sim (X × ℝ) W}
    (hz : ∀ i : ℕ, i < n → series T j (s.m.t + (i + 1 : ℕ) * dt) = 0)
    (h : simRun (metered hy j) c (plain n tol norm dt) s = .ok s') :
    s'.m.x.2 = s.m.x.2 := by
  obtain ⟨-, h2⟩ := C88_delivered_partial n h
  rw [h2, Finset.sum_eq_zero, add_zero]
  intro i hi
  have : inflow (c.forcing (s.m.t + (i + 1 : ℕ) * dt)) j = series T j (s.m.t + (i + 1 : ℕ) * dt) := by
    rw [hc]; rfl
  rw [this, hz i (Finset.mem_range.1 hi), mul_zero]

/-- A pulse of height `q` at time 1 in a series that is otherwise zero. -/
def pulse (q : ℝ) : Table := ⟨3, fun i => i, fun i _ => if i = 1 then q else 0⟩

/-- **C88 (violated, witness).** One step of 2 over a pulse of volume `q` takes in nothing. -/
theorem C88_pulse_missed (q : ℝ) : ∃ (s s' : Sim (ℝ × ℝ) Unit) (c : Cfg Inp),
    c.forcing = forcing .linear ⟨none, none, none⟩ (some (pulse q)) none none ∧
    (let hy : Hydraulics ℝ Unit Inp := ⟨1, fun x _ => some x, fun _ x _ _ _ => .ok (x, ()), fun _ _ => ()⟩
     simRun (metered hy 0) c (plain 1 1 2 2) s = .ok s') ∧
    s'.m.t = s.m.t + 2 ∧ s'.m.x.2 = s.m.x.2 ∧ ∫ x in s.m.t..s'.m.t, series (pulse q) 0 x = q := by
  have hs : Sorted (pulse q).n (pulse q).time := by
    intro i j hij _; simp only [pulse]; exact_mod_cast hij
  have v : ∀ i, i < 3 → series (pulse q) 0 (i : ℕ) = if i = 1 then q else 0 := by
    intro i hi
    exact C38_sample_reproduced .linear (xp := (pulse q).time) hs hi
  let hy : Hydraulics ℝ Unit Inp := ⟨1, fun x _ => some x, fun _ x _ _ _ => .ok (x, ()), fun _ _ => ()⟩
  let c : Cfg Inp := ⟨60, 1, 1, 1, forcing .linear ⟨none, none, none⟩ (some (pulse q)) none none⟩
  let s : Sim (ℝ × ℝ) Unit := ⟨⟨0, 0, (0, 0), (0, (0, 0)), ()⟩, 1, [1], [.val eps], 0⟩
  have fin : ∀ x, Finite (metered hy 0) x := by intro x j _; simp [metered, hy]
  have hst : ∃ m', modelStep (metered hy 0) c 2 s.m = .ok m' := by
    simp [modelStep, superStep, onePass, saveState, metered, hy, c]
  obtain ⟨m', hm'⟩ := hst
  have hr : ∃ s', simRun (metered hy 0) c (plain 1 1 2 2) s = .ok s' := by
    simp [plain, simRun, simStep, attempt, hm', finish, if_pos (fin _)]
  obtain ⟨s', hs'⟩ := hr
  obtain ⟨h1, -⟩ := C88_delivered_partial 1 hs'
  have hm := C88_missed (T := pulse q) rfl 1 (by
    intro i hi
    have : i = 0 := by omega
    subst this
    have := v 2 (by norm_num)
    simp only [s]
    norm_num at this ⊢
    exact this) hs'
  have ht : s'.m.t = 2 := by rw [h1]; simp [s]
  refine ⟨s, s', c, rfl, hs', by rw [h1]; simp, hm, ?_⟩
  have g1 := series_integral (T := pulse q) (j := 0) (i := 0) hs (by simp [pulse]) (a := 0) (b := 1)
    (by norm_num) (by simp [pulse]) (by simp [pulse])
  have g2 := series_integral (T := pulse q) (j := 0) (i := 1) hs (by simp [pulse]) (a := 1) (b := 2)
    (by norm_num) (by simp [pulse]) (by simp [pulse])
  have e0 := v 0 (by norm_num)
  have e1 := v 1 (by norm_num)
  have e2 := v 2 (by norm_num)
  norm_num at e0 e1 e2
  rw [ht, show s.m.t = 0 from rfl, ← intervalIntegral.integral_add_adjacent_intervals g1.1 g2.1, g1.2, g2.2,
    e0, e1, e2]
  ring

/-- Non-vacuity of `C88_difference_partial`: two steps of 1 over the pulse end at samples and complete. -/
example (q : ℝ) : ∃ (s s' : Sim (ℝ × ℝ) Unit) (c : Cfg Inp) (hy : Hydraulics ℝ Unit Inp),
    c.forcing = forcing .linear ⟨none, none, none⟩ (some (pulse q)) none none ∧
    Sorted (pulse q).n (pulse q).time ∧
    (∀ i : ℕ, i < 2 → ∃ k, k + 1 < (pulse q).n ∧ (pulse q).time k ≤ s.m.t + i * 1 ∧
      s.m.t + (i + 1 : ℕ) * 1 ≤ (pulse q).time (k + 1)) ∧
    simRun (metered hy 0) c (plain 2 1 2 1) s = .ok s' := by
  let hy : Hydraulics ℝ Unit Inp := ⟨1, fun x _ => some x, fun _ x _ _ _ => .ok (x, ()), fun _ _ => ()⟩
  let c : Cfg Inp := ⟨60, 1, 1, 1, forcing .linear ⟨none, none, none⟩ (some (pulse q)) none none⟩
  let s : Sim (ℝ × ℝ) Unit := ⟨⟨0, 0, (0, 0), (0, (0, 0)), ()⟩, 1, [1], [.val eps], 0⟩
  have fin : ∀ x, Finite (metered hy 0) x := by intro x j _; simp [metered, hy]
  have hst : ∀ m, ∃ m', modelStep (metered hy 0) c 1 m = .ok m' := by
    intro m
    simp [modelStep, superStep, onePass, saveState, metered, hy, c]
  have step : ∀ s : Sim (ℝ × ℝ) Unit, ∃ s', simStep (metered hy 0) c 1 0 1 2 1 s = .ok s' := by
    intro s
    obtain ⟨m', hm'⟩ := hst s.m
    simp [simStep, attempt, hm', finish, if_pos (fin _)]
  obtain ⟨s1, h1⟩ := step s
  obtain ⟨s2, h2⟩ := step s1
  refine ⟨s, s2, c, hy, rfl, ?_, ?_, ?_⟩
  · intro i j hij _; simp only [pulse]; exact_mod_cast hij
  · intro i hi
    refine ⟨i, by simp only [pulse]; omega, ?_, ?_⟩ <;> simp [pulse, s]
  · simp only [plain, List.replicate, simRun, h1, h2]

/-! ### C89: progress bar -/

theorem pyRound_bounds (x : ℝ) : |(pyRound x : ℝ) - x| ≤ 1 / 2 := by
  unfold pyRound
  have hf := Int.floor_add_fract x
  split_ifs with h1 h2
  · rw [h1] at hf
    rw [abs_le]; constructor <;> linarith
  · rw [h1] at hf
    push_cast
    rw [abs_le]; constructor <;> linarith
  · have := abs_sub_round x
    rwa [abs_sub_comm] at this

theorem pyRound_ties (x : ℝ) : |(pyRound x : ℝ) - x| ≤ 1 / 2 ∧ (|(pyRound x : ℝ) - x| = 1 / 2 → Even (pyRound x)) := by
  refine ⟨pyRound_bounds x, fun h => ?_⟩
  have hx := Int.floor_add_fract x
  have hf0 := Int.fract_nonneg x
  have hf1 := Int.fract_lt_one x
  by_cases hf : Int.fract x = 1 / 2
  · unfold pyRound
    rw [if_pos hf]
    split_ifs with he
    · exact he
    · exact (Int.not_even_iff_odd.mp he).add_one
  · exfalso
    unfold pyRound at h
    rw [if_neg hf] at h
    rcases abs_eq (by norm_num : (0:ℝ) ≤ 1 / 2) |>.mp h with h | h
    · apply hf
      have : x = (round x - 1 : ℤ) + 1 / 2 := by push_cast; linarith
      rw [this, Int.fract_intCast_add]; rw [Int.fract_eq_self]; norm_num
    · apply hf
      have : x = (round x : ℤ) + 1 / 2 := by linarith
      rw [this, Int.fract_intCast_add]; rw [Int.fract_eq_self]; norm_num

/-- **C89.** With `t_start < t_end` and a time not before `t_start`, a bar of exactly 50 characters is
printed, full from `t_end` on. -/
theorem C89_bar_partial {a b t : ℝ} (hab : a < b) (hat : a ≤ t) :
    ∃ p, bar a b t = .ok p ∧ p.1 + p.2 = 50 ∧ (b ≤ t → p = (50, 0)) ∧ (t = a → p = (0, 50)) := by
  have hne : b - a ≠ 0 := by linarith
  have hpos : 0 < b - a := by linarith
  set u := if t > b then b else t with hu
  have hu0 : a ≤ u := by rw [hu]; split_ifs <;> linarith
  have hu1 : u ≤ b := by rw [hu]; split_ifs <;> linarith
  have r0 : 0 ≤ (u - a) / (b - a) := div_nonneg (by linarith) hpos.le
  have r1 : (u - a) / (b - a) ≤ 1 := by rw [div_le_one hpos]; linarith
  have hb := abs_le.1 (pyRound_bounds (50 * ((u - a) / (b - a))))
  have l0 : (0 : ℤ) ≤ pyRound (50 * ((u - a) / (b - a))) := by
    have : (-1 : ℝ) < pyRound (50 * ((u - a) / (b - a))) := by linarith
    have : (-1 : ℤ) < pyRound (50 * ((u - a) / (b - a))) := by exact_mod_cast this
    omega
  have l1 : pyRound (50 * ((u - a) / (b - a))) ≤ 50 := by
    have : (pyRound (50 * ((u - a) / (b - a))) : ℝ) < 51 := by linarith
    have : pyRound (50 * ((u - a) / (b - a))) < (51 : ℤ) := by exact_mod_cast this
    omega
  refine ⟨_, by simp only [bar, if_neg hne]; rfl, ?_, ?_, ?_⟩
  · simp only [← hu]; omega
  · intro hbt
    have : u = b := by rw [hu]; split_ifs <;> linarith
    simp only [← hu, this, div_self hne, mul_one]
    have : pyRound (50 : ℝ) = 50 := by
      have : Int.fract (50 : ℝ) = 0 := by exact_mod_cast Int.fract_natCast (R := ℝ) 50
      rw [pyRound, this]; norm_num
    rw [this]; rfl
  · intro hta
    have : u = a := by rw [hu]; split_ifs <;> linarith
    simp only [← hu, this, sub_self, zero_div, mul_zero]
    have : pyRound (0 : ℝ) = 0 := by rw [pyRound]; simp
    rw [this]; rfl

/-- **C89 (length).** Between `t_start` and `t_end` the bar has the number of blocks nearest to the share of the time, the even
one of two equally near ones. -/
theorem C89_share {a b t : ℝ} (hab : a < b) (hat : a ≤ t) (htb : t ≤ b) (p : ℕ × ℕ) (hp : bar a b t = .ok p) :
    |(p.1 : ℝ) - 50 * ((t - a) / (b - a))| ≤ 1 / 2 ∧
      (|(p.1 : ℝ) - 50 * ((t - a) / (b - a))| = 1 / 2 → Even p.1) := by
  have hne : b - a ≠ 0 := by linarith
  have hr := pyRound_ties (50 * ((t - a) / (b - a)))
  have r0 : 0 ≤ 50 * ((t - a) / (b - a)) :=
    mul_nonneg (by norm_num) (div_nonneg (by linarith) (by linarith))
  have l0 : (0 : ℤ) ≤ pyRound (50 * ((t - a) / (b - a))) := by
    have hb := abs_le.1 hr.1
    have : (-1 : ℝ) < pyRound (50 * ((t - a) / (b - a))) := by linarith
    have : (-1 : ℤ) < pyRound (50 * ((t - a) / (b - a))) := by exact_mod_cast this
    omega
  simp only [bar, if_neg (not_lt.mpr htb), if_neg hne, Except.ok.injEq] at hp
  have e : ((p.1 : ℤ)) = pyRound (50 * ((t - a) / (b - a))) := by
    rw [← hp]; exact Int.toNat_of_nonneg l0
  have e' : (p.1 : ℝ) = (pyRound (50 * ((t - a) / (b - a))) : ℝ) := by rw [← e]; simp
  rw [e']
  refine ⟨hr.1, fun h => ?_⟩
  have := hr.2 h
  rw [← e] at this
  exact_mod_cast this

/-- A time at which two numbers of blocks are equally near: 2.5 of 50. -/
example : (50 : ℝ) * ((5 - 0) / (100 - 0)) = 5 / 2 ∧ pyRound (5 / 2) = 2 := by
  refine ⟨by norm_num, ?_⟩
  have h : ⌊(5 / 2 : ℝ)⌋ = 2 := by rw [Int.floor_eq_iff]; norm_num
  have hf : Int.fract (5 / 2 : ℝ) = 1 / 2 := by rw [Int.fract, h]; norm_num
  rw [pyRound, if_pos hf, h, if_pos (by decide)]

/-- **C89.** Called at non-decreasing times of a simulation with `t_start < t_end`, `print_progress` never
raises, prints at most 50 times in all, and prints only well-formed bars. -/
theorem C89_prints_partial {a b : ℝ} (hab : a < b) (ts : List ℝ) (hts : ts.Pairwise (· ≤ ·)) :
    ∃ l, printAll a b ts 0 = .ok l ∧ l.length ≤ 50 ∧ ∀ p ∈ l, p.1 + p.2 = 50 := by
  have key : ∀ (ts : List ℝ) (num : ℕ), ts.Pairwise (· ≤ ·) → num ≤ 50 →
      (∀ t ∈ ts, num ≤ searchsorted 50 (checkpoint a b) t) →
      ∃ l, printAll a b ts num = .ok l ∧ l.length + num ≤ 50 ∧ ∀ p ∈ l, p.1 + p.2 = 50 := by
    intro ts
    induction ts with
    | nil => intro num _ hn _; exact ⟨[], rfl, by simpa using hn, by simp⟩
    | cons t rest ih =>
      intro num hp hn hle
      rw [List.pairwise_cons] at hp
      simp only [printAll, printProgress]
      set cur := searchsorted 50 (checkpoint a b) t with hcur
      by_cases hc : cur = num
      · obtain ⟨l, h1, h2, h3⟩ := ih num hp.2 hn fun x hx => hle x (by simp [hx])
        simp only [hc, if_true, h1]
        exact ⟨l, rfl, h2, h3⟩
      · have hlt : num < cur := lt_of_le_of_ne (hle t (by simp)) (Ne.symm hc)
        have hta : a ≤ t := by
          have := searchsorted_lt (n := 50) (xp := checkpoint a b) (x := t) (i := 0) (by omega)
          have : checkpoint a b 0 < t := by simpa using this
          simp only [checkpoint, Nat.cast_zero, zero_mul, add_zero] at this
          exact this.le
        obtain ⟨p, hb, hp50, -⟩ := C89_bar_partial hab hta
        obtain ⟨l, h1, h2, h3⟩ := ih cur hp.2 (searchsorted_le _ _ _) fun x hx =>
          searchsorted_mono (hp.1 x hx)
        simp only [hc, if_false, hb, h1]
        refine ⟨_, rfl, ?_, ?_⟩
        · simp only [Option.toList_some, List.length_append, List.length_singleton]; omega
        · intro q hq
          simp only [Option.toList_some, List.mem_append, List.mem_singleton] at hq
          rcases hq with rfl | hq
          · exact hp50
          · exact h3 q hq
  obtain ⟨l, h1, h2, h3⟩ := key ts 0 hts (by norm_num) (by simp)
  exact ⟨l, h1, by simpa using h2, h3⟩

/-- **C89 (violated).** With equal start and end — inputs with a single row — the first call after that
time raises `ZeroDivisionError`; and before a `t_start` that was given but not reached the bar is longer
than 50 characters. -/
theorem C89_violated :
    (∀ a t : ℝ, a < t → printProgress a a t 0 = .error .zeroDivision) ∧
    bar 100 200 0 = .ok (0, 100) := by
  constructor
  · intro a t ht
    have h50 : searchsorted 50 (checkpoint a a) t = 50 :=
      searchsorted_eq le_rfl (fun i _ => by simp [checkpoint, ht]) (by omega)
    simp [printProgress, h50, bar]
  · have : pyRound (50 * ((0 - 100) / (200 - 100)) : ℝ) = -50 := by
      have e : (50 * ((0 - 100) / (200 - 100)) : ℝ) = ((-50 : ℤ) : ℝ) := by norm_num
      rw [e, pyRound, Int.fract_intCast, if_neg (by norm_num), round_intCast]
    simp only [bar]
    rw [if_neg (by norm_num), if_neg (by norm_num), this]
    rfl

/-! ### C90: spin-up -/

theorem spinLoop_ok {dflt dt tol : ℝ} {numIter : ℤ} {inp : I} (n : ℕ) {m m' : Mdl X W}
    (h : spinLoop hy dflt dt numIter tol inp n m = .ok m') :
    m'.t = m.t + n * dt ∧ m'.iter = m.iter + n ∧ (0 < n → m'.saved.1 = m.t + (n - 1 : ℕ) * dt) := by
  induction n generalizing m with
  | zero => cases h; simp
  | succ n ih =>
    simp only [spinLoop] at h
    cases hs : superStep hy dflt (some dt) numIter tol inp m with
    | error e => rw [hs] at h; cases h
    | ok p =>
      obtain ⟨m1, e⟩ := p
      rw [hs] at h
      obtain ⟨h1, h2, h3⟩ := ih h
      obtain ⟨ht, hi, hsv, -⟩ := C46_step hs
      refine ⟨by rw [h1, ht]; push_cast; ring, by rw [h2, hi]; push_cast; ring, ?_⟩
      intro _
      rcases Nat.eq_zero_or_pos n with rfl | hn
      · simp only [spinLoop] at h; cases h; simp [hsv]
      · rw [h3 hn, ht]
        obtain ⟨k, rfl⟩ := Nat.exists_eq_succ_of_ne_zero hn.ne'
        simp only [Nat.succ_eq_add_one, Nat.add_sub_cancel]
        push_cast; ring

/-- **C90 (what holds).** After `spinup` with `reset_counters` (the default) clock and step counter are
zero; the hydraulic state is that of `n` ordinary steps. Without the reset the clock shows the `n` steps. -/
theorem C90_counters_partial {dflt dt tol : ℝ} {numIter : ℤ} {inp : I} {n : ℕ} {reset : Bool}
    {m m' : Mdl X W} (h : spinup hy dflt dt numIter tol inp n reset m = .ok m') :
    ∃ m1, spinLoop hy dflt dt numIter tol inp n m = .ok m1 ∧ m'.x = m1.x ∧ m'.saved = m1.saved ∧
      (reset = true → m'.t = 0 ∧ m'.iter = 0) ∧
      (reset = false → m'.t = m.t + n * dt ∧ m'.iter = m.iter + n) := by
  unfold spinup at h
  cases hs : spinLoop hy dflt dt numIter tol inp n m with
  | error e => rw [hs] at h; cases h
  | ok m1 =>
    rw [hs] at h
    injection h with h
    subst h
    obtain ⟨h1, h2, -⟩ := spinLoop_ok n hs
    refine ⟨m1, rfl, ?_, ?_, ?_, ?_⟩
    · cases reset <;> rfl
    · cases reset <;> rfl
    · rintro rfl; exact ⟨rfl, rfl⟩
    · rintro rfl; exact ⟨h1, h2⟩

/-- **C90 (violated).** The saved state is not reset: `load_state()` after a spin-up of `n ≥ 1` steps puts
the clock to `t + (n−1)·dt`, not to the time before the last step relative to the reset clock; this is
at or before zero only if `t + (n−1)·dt ≤ 0`. -/
theorem C90_reload_time {dflt dt tol : ℝ} {numIter : ℤ} {inp : I} {n : ℕ} {reset : Bool}
    {m m' : Mdl X W} (hn : 0 < n) (h : spinup hy dflt dt numIter tol inp n reset m = .ok m') :
    (loadState hy m'.saved m').t = m.t + (n - 1 : ℕ) * dt := by
  obtain ⟨m1, hs, -, hsv, -⟩ := C90_counters_partial h
  simp only [loadState, hsv]
  exact (spinLoop_ok n hs).2.2 hn

/-- Non-vacuity: a spin-up of three steps of the toy model completes; reloading puts its clock to 20. -/
example : ∃ m', spinup toy 60 10 1 1 () 3 true ⟨0, 0, 1000, (0, 1000), ()⟩ = .ok m' ∧ m'.t = 0 ∧
    (loadState toy m'.saved m').t = 20 := by
  refine ⟨_, by simp [spinup, spinLoop, superStep, onePass, saveState, toy]; rfl, rfl, ?_⟩
  simp only [loadState]; norm_num

end Pipedream.Record
