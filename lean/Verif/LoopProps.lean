import Verif.LoopModel
import Verif.DriverProps
import Verif.WholeProps
import Verif.EnergyProps

/-!
# C155: the documented simulation loops end

A sound model, a finite end time and positive step sizes: the loop with a fixed step makes the expected number of steps;
the adaptive loop ends too, at most one step beyond the end time, and the number of its steps is bounded by the smallest
step size.
-/

namespace Pipedream.Driver

open Pipedream.Link Pipedream.Step

noncomputable section

variable {X W I : Type} {hy : Hydraulics X W I} {c : Cfg I}

/-! ### Specification -/

/-- Hydraulics which never fail: good states and good scratch arrays lead to good ones, in steps of any positive size,
and good states have finite heads. -/
structure Reliable (hy : Hydraulics X W I) (c : Cfg I) (Gx : X → Prop) (Gw : W → Prop) : Prop where
  pass : ∀ sv cur w dt t, Gx cur → Gw w → 0 < dt → ∃ x w', hy.pass sv cur w dt (c.forcing t) = .ok (x, w') ∧ Gx x ∧ Gw w'
  reload : ∀ x w, Gw w → Gw (hy.reload x w)
  finite : ∀ x, Gx x → Finite hy x

/-- A model whose state and scratch arrays are good. -/
def GoodMdl (Gx : X → Prop) (Gw : W → Prop) (m : Mdl X W) : Prop := Gx m.x ∧ Gw m.w

/-- The norms which `_normed_error` knows. -/
def Known (norm : ℤ) : Prop := norm = 0 ∨ norm = 1 ∨ norm = 2 ∨ norm = -1

/-! ### Lemmas -/

variable {Gx : X → Prop} {Gw : W → Prop}

theorem onePass_good (R : Reliable hy c Gx Gw) {dflt dt : ℝ} (h0 : 0 < dt) (first : Bool) (t : ℝ) {m : Mdl X W}
    (g : GoodMdl Gx Gw m) :
    ∃ m', onePass hy dflt (some dt) first (c.forcing t) m = .ok m' ∧ GoodMdl Gx Gw m' ∧ (first = true → Gx m'.saved.2) ∧
      (first = false → m'.saved = m.saved) := by
  unfold onePass
  cases first
  · obtain ⟨x, w, e, gx, gw⟩ := R.pass m.saved.2 m.x m.w dt t g.1 g.2 h0
    simp only [Bool.false_eq_true, if_false, Option.getD_some, e]
    exact ⟨_, rfl, ⟨gx, gw⟩, by simp, fun _ => rfl⟩
  · obtain ⟨x, w, e, gx, gw⟩ := R.pass m.x m.x m.w dt t g.1 g.2 h0
    simp only [if_true, Option.getD_some, saveState, e]
    exact ⟨_, rfl, ⟨gx, gw⟩, fun _ => g.1, by simp⟩

theorem fixLoop_good (R : Reliable hy c Gx Gw) {dflt dt tol : ℝ} (h0 : 0 < dt) (t : ℝ) (n : ℕ) (xn : X) {m : Mdl X W} (e : ℕ)
    (g : GoodMdl Gx Gw m) :
    ∃ r, fixLoop hy dflt dt tol (c.forcing t) n xn m e = .ok r ∧ GoodMdl Gx Gw r.1 := by
  induction n generalizing xn m e with
  | zero => exact ⟨_, rfl, g⟩
  | succ n ih =>
    obtain ⟨m', e1, g', -⟩ := onePass_good (dflt := dflt) R h0 false t
      (m := { m with iter := m.iter - 1, t := m.t - dt }) ⟨g.1, g.2⟩
    simp only [fixLoop, e1]
    split_ifs
    · exact ⟨_, rfl, g'⟩
    · exact ih m'.x (e + 1) g'

theorem modelStep_good (R : Reliable hy c Gx Gw) {dt : ℝ} (h0 : 0 < dt) {m : Mdl X W} (g : GoodMdl Gx Gw m) :
    ∃ m', modelStep hy c dt m = .ok m' ∧ GoodMdl Gx Gw m' := by
  unfold modelStep superStep
  obtain ⟨m1, e1, g1, -⟩ := onePass_good (dflt := c.dflt) R h0 true (m.t + dt) g
  simp only [e1]
  split_ifs
  · exact ⟨_, rfl, g1⟩
  · obtain ⟨r, e2, g2⟩ := fixLoop_good (dflt := c.dflt) (tol := c.headTol) R h0 (m.t + dt) (c.numIter - 1).toNat m1.x 1 g1
    simp only [e2]
    exact ⟨_, rfl, g2⟩
  · exact ⟨_, rfl, g1⟩

theorem substeps_good (R : Reliable hy c Gx Gw) {dt : ℝ} (h0 : 0 < dt) (n : ℕ) {m : Mdl X W} (g : GoodMdl Gx Gw m) :
    ∃ m', substeps hy c dt n m = .ok m' ∧ GoodMdl Gx Gw m' := by
  induction n generalizing m with
  | zero => exact ⟨_, rfl, g⟩
  | succ n ih =>
    obtain ⟨m1, e1, g1⟩ := modelStep_good R h0 g
    simp only [substeps, e1]
    exact ih g1

theorem normedErr_known {norm : ℤ} (hn : Known norm) (n : ℕ) (v : ℕ → Option ℝ) :
    ∃ e, normedErr norm n v = .ok e ∧ e ≠ .none := by
  unfold normedErr
  rcases hn with rfl | rfl | rfl | rfl
  · exact ⟨_, rfl, by simp⟩
  all_goals
    norm_num
    split_ifs
    · exact ⟨_, rfl, by simp⟩
    · exact ⟨_, rfl, by simp⟩

theorem attempt_good (R : Reliable hy c Gx Gw) {sub : ℕ} {norm : ℤ} (hn : Known norm) {dt : ℝ} (h0 : 0 < dt) {m : Mdl X W}
    (g : GoodMdl Gx Gw m) :
    ∃ m' err ini, attempt hy c sub norm dt m = .ok (m', err, ini) ∧ GoodMdl Gx Gw m' ∧ (sub > 1 → err ≠ .none) := by
  unfold attempt
  obtain ⟨m1, e1, g1⟩ := modelStep_good R h0 g
  simp only [e1]
  by_cases hs : sub > 1
  · rw [if_pos hs]
    have sv := (modelStep_ok e1).2
    obtain ⟨m2, e2, g2⟩ := substeps_good R (dt := dt / sub) (by positivity) sub (m := loadState hy m1.saved m1)
      ⟨by rw [sv]; exact g.1, R.reload _ _ g1.2⟩
    obtain ⟨er, e3, n3⟩ := normedErr_known hn hy.M (scaledErr hy m1.x m2.x m2.saved.2)
    simp only [e2, e3]
    exact ⟨_, _, _, rfl, g2, fun _ => n3⟩
  · rw [if_neg hs]
    exact ⟨_, _, _, rfl, g1, fun h => absurd h hs⟩

theorem simStep_good (R : Reliable hy c Gx Gw) (sub retries : ℕ) (tol : ℝ) {norm : ℤ} (hn : Known norm) {dt : ℝ} (h0 : 0 < dt)
    {s : Sim X W} (g : GoodMdl Gx Gw s.m) :
    ∃ s', simStep hy c sub retries tol norm dt s = .ok s' ∧ GoodMdl Gx Gw s'.m := by
  have fin : ∀ s : Sim X W, GoodMdl Gx Gw s.m → finish hy s = .ok { s with iter := s.iter + 1 } := by
    intro s g
    unfold finish
    rw [if_pos (R.finite _ g.1)]
  induction retries generalizing tol norm dt s with
  | zero =>
    obtain ⟨m', err, ini, e, g', -⟩ := attempt_good (sub := sub) R hn h0 g
    simp only [simStep, e]
    rw [fin _ (by exact g')]
    exact ⟨_, rfl, g'⟩
  | succ r ih =>
    obtain ⟨m', err, ini, e, g', -⟩ := attempt_good (sub := sub) R hn h0 g
    simp only [simStep, e]
    split_ifs
    · have gi : ini = (s.m.t, s.m.x) := (attempt_ok e).2.1
      obtain ⟨s2, e2, g2⟩ := ih 1 (norm := 2) (Or.inr (Or.inr (Or.inl rfl))) (dt := 0.5 * dt) (by linarith)
        (s := { record dt m' err s with m := loadState hy ini m', dts := (record dt m' err s).dts.tail,
                                        errs := (record dt m' err s).errs.tail })
        ⟨by rw [gi]; exact g.1, R.reload _ _ g'.2⟩
      rw [e2]
      exact ⟨_, fin s2 g2, g2⟩
    · rw [fin _ (by exact g')]
      exact ⟨_, rfl, g'⟩

/-- Without retries `_iter_count` counts the calls. -/
theorem simStep_count {sub : ℕ} {tol : ℝ} {norm : ℤ} {dt : ℝ} {s s' : Sim X W}
    (h : simStep hy c sub 0 tol norm dt s = .ok s') : s'.iter = s.iter + 1 := by
  simp only [simStep] at h
  cases ha : attempt hy c sub norm dt s.m with
  | error e => rw [ha] at h; cases h
  | ok r =>
    rw [ha] at h
    obtain ⟨-, rfl⟩ := finish_ok h
    rfl

/-- A loop whose body always succeeds and advances a clock by at least `δ` ends. -/
theorem loop_ends {σ : Type} {cond : σ → Prop} {body : σ → Except DErr σ} (Inv : σ → Prop) (clock : σ → ℝ) {δ T : ℝ}
    (step : ∀ s, Inv s → cond s → ∃ s', body s = .ok s' ∧ Inv s' ∧ clock s + δ ≤ clock s')
    (late : ∀ s, cond s → clock s ≤ T) (n : ℕ) {s : σ} (hs : Inv s) (hn : T - clock s < n * δ) :
    ∃ s', whileLoop cond body n s = .ok (some s') ∧ Inv s' ∧ ¬ cond s' := by
  induction n generalizing s with
  | zero =>
    have : ¬ cond s := fun h => by have := late s h; simp at hn; linarith
    simp only [whileLoop]
    rw [if_neg this]
    exact ⟨s, rfl, hs, this⟩
  | succ n ih =>
    simp only [whileLoop]
    by_cases hc : cond s
    · rw [if_pos hc]
      obtain ⟨s', e, hi, ht⟩ := step s hs hc
      simp only [e]
      exact ih hi (by push_cast at hn; linarith)
    · rw [if_neg hc]
      exact ⟨s, rfl, hs, hc⟩

/-- The lists of step sizes and errors as the constructor and every step with an estimate leave them. -/
structure Estimated (s : Sim X W) : Prop where
  len : s.dts.length = s.errs.length
  pos : 0 < s.dts.length
  est : ∀ e ∈ s.errs, e ≠ .none

theorem filter_good {tol : ℝ} {s : Sim X W} (es : Estimated s) (h3 : s.dts.length ≤ 3) (q : Coeffs)
    {minDt maxDt minRel maxRel safety k d : ℝ} (hm : minDt ≤ maxDt) (hd : s.dts.head? = some d) :
    ∃ r, filterStepSize tol s.dts s.errs q minDt maxDt minRel maxRel safety k = .ok r ∧
      (r = d ∨ (minDt ≤ r ∧ r ≤ maxDt)) := by
  obtain ⟨dts, errs, hs1, hs2⟩ : ∃ dts errs, s.dts = dts ∧ s.errs = errs := ⟨_, _, rfl, rfl⟩
  have hl := es.len
  have hp := es.pos
  have he := es.est
  rw [hs1] at hl hp h3 hd ⊢
  rw [hs2] at hl he ⊢
  rcases dts with _ | ⟨a, _ | ⟨b, _ | ⟨e, _ | ⟨f, l⟩⟩⟩⟩
  · simp at hp
  · simp at hd; exact ⟨a, rfl, Or.inl hd⟩
  · simp at hd; exact ⟨a, rfl, Or.inl hd⟩
  · simp at hd
    rcases errs with _ | ⟨e1, _ | ⟨e2, _ | ⟨e3, _ | ⟨e4, l⟩⟩⟩⟩ <;> simp at hl
    have n1 := he e1 (by simp)
    have n2 := he e2 (by simp)
    have n3 := he e3 (by simp)
    cases e1 <;> cases e2 <;> cases e3 <;> first
      | exact absurd rfl n1
      | exact absurd rfl n2
      | exact absurd rfl n3
      | exact ⟨a, rfl, Or.inl hd⟩
      | exact ⟨_, rfl, Or.inr ⟨le_min (le_max_right _ _) hm, min_le_right _ _⟩⟩
  · simp at h3; omega

/-- The adaptive body succeeds, and the next step size is again between the limits. -/
theorem body_good (R : Reliable hy c Gx Gw) {f : Filter} {sub retries : ℕ} {norm : ℤ} (hn : Known norm) (hs : 2 ≤ sub)
    (cf : f.minDt = c.minDt) (hm : f.minDt ≤ f.maxDt) {lo hi : ℝ} (l0 : 0 < lo) (l1 : lo ≤ f.minDt) (l2 : f.maxDt ≤ hi)
    {p : Sim X W × ℝ} (g : GoodMdl Gx Gw p.1.m) (es : Estimated p.1) (h1 : lo ≤ p.2) (h2 : p.2 ≤ hi) :
    ∃ p', adaptiveBody hy c f sub retries norm p = .ok p' ∧ GoodMdl Gx Gw p'.1.m ∧ Estimated p'.1 ∧ lo ≤ p'.2 ∧ p'.2 ≤ hi ∧
      p.1.m.t + lo ≤ p'.1.m.t ∧ p'.1.m.t ≤ p.1.m.t + hi := by
  obtain ⟨s', e, g'⟩ := simStep_good R sub retries 1 hn (lt_of_lt_of_le l0 h1) g
  obtain ⟨j, m0, err, acc⟩ := simStep_accepted sub retries e
  obtain ⟨ini, hrun⟩ := acc.run
  have ne : err ≠ .none := by
    obtain ⟨-, -, h | h⟩ := attempt_ok hrun
    · exact absurd hs (by omega)
    · obtain ⟨-, m1, -, -, hne⟩ := h
      have k2 : Known (if j = 0 then norm else 2) := by split_ifs <;> [exact hn; exact Or.inr (Or.inr (Or.inl rfl))]
      obtain ⟨e', h1, h2⟩ := normedErr_known k2 hy.M (scaledErr hy m1.x s'.m.x s'.m.saved.2)
      rw [h1] at hne
      cases hne
      exact h2
  have es' : Estimated s' := by
    refine ⟨?_, ?_, ?_⟩
    · rw [acc.dts, acc.errs]; simp [push, es.len]
    · rw [acc.dts]; simp [push]
    · rw [acc.errs]
      intro e' he'
      rcases List.mem_cons.mp (List.mem_of_mem_take he') with h | h
      · rw [h]; exact ne
      · exact es.est e' h
  have ha : lo ≤ p.2 / 2 ^ j ∧ p.2 / 2 ^ j ≤ hi := by
    refine ⟨?_, (div_le_self (l0.le.trans h1) (one_le_pow₀ (by norm_num))).trans h2⟩
    rcases Nat.eq_zero_or_pos j with h | h
    · rw [h]; simpa using h1
    · exact l1.trans (cf.le.trans (acc.halved h).le)
  obtain ⟨r, er, hr⟩ := filter_good (tol := f.tol) es' (by rw [acc.dts]; simp [push]) f.q (minDt := f.minDt) (maxDt := f.maxDt)
    (minRel := f.minRel) (maxRel := f.maxRel) (safety := f.safety) (k := f.k) hm (d := p.2 / 2 ^ j) (by rw [acc.dts]; rfl)
  have ht : s'.m.t = p.1.m.t + p.2 / 2 ^ j := by rw [(attempt_ok hrun).1, acc.from_t]
  refine ⟨(s', r), ?_, g', es', ?_, ?_, ?_, ?_⟩
  · unfold adaptiveBody
    simp only [e, er]
  · rcases hr with h | h
    · exact h.symm ▸ ha.1
    · exact l1.trans h.1
  · rcases hr with h | h
    · exact h.symm ▸ ha.2
    · exact h.2.trans l2
  · show _ ≤ s'.m.t
    rw [ht]; linarith [ha.1]
  · show s'.m.t ≤ _
    rw [ht]; linarith [ha.2]

/-! ### C155 -/

/-- **C155 (fixed step).** The loop ends, every step succeeds, it makes `n` steps of exactly `dt`, and ends at the first
of these times beyond the end time. -/
theorem C155_fixed (R : Reliable hy c Gx Gw) {dt T : ℝ} (h0 : 0 < dt) {s : Sim X W} (g : GoodMdl Gx Gw s.m) :
    ∃ n s', fixedLoop hy c T dt n s = .ok (some s') ∧ s'.m.t = s.m.t + n * dt ∧ s'.iter = s.iter + n ∧ T < s'.m.t ∧
      (s.m.t ≤ T → s'.m.t ≤ T + dt) := by
  have key : ∀ n : ℕ, ∀ s : Sim X W, GoodMdl Gx Gw s.m → (∀ i : ℕ, i < n → s.m.t + i * dt ≤ T) → T < s.m.t + n * dt →
      ∃ s', fixedLoop hy c T dt n s = .ok (some s') ∧ s'.m.t = s.m.t + n * dt ∧ s'.iter = s.iter + n := by
    intro n
    induction n with
    | zero =>
      intro s g _ h
      refine ⟨s, ?_, by simp, by simp⟩
      simp only [fixedLoop, whileLoop]
      rw [if_neg]
      intro hc
      have := WithTop.coe_le_coe.mp hc
      simp at h
      linarith
    | succ n ih =>
      intro s g hl h
      obtain ⟨s1, e1, g1⟩ := simStep_good R 1 0 1 (norm := 2) (Or.inr (Or.inr (Or.inl rfl))) h0 g
      obtain ⟨j, hj, ht, -⟩ := C40_time 1 0 e1
      have j0 : j = 0 := by omega
      rw [j0, pow_zero, div_one] at ht
      obtain ⟨s', e', ht', hi'⟩ := ih s1 g1 (fun i hi => by
          have := hl (i + 1) (by omega); push_cast at this; rw [ht]; linarith)
        (by rw [ht]; push_cast at h; linarith)
      refine ⟨s', ?_, ?_, ?_⟩
      · unfold fixedLoop at e' ⊢
        simp only [whileLoop]
        rw [if_pos (WithTop.coe_le_coe.mpr (by simpa using hl 0 (by omega))), e1]
        exact e'
      · rw [ht', ht]; push_cast; ring
      · rw [hi', simStep_count e1]; ring
  by_cases hT : s.m.t ≤ T
  · set n := ⌊(T - s.m.t) / dt⌋₊ + 1 with hn
    have q0 : 0 ≤ (T - s.m.t) / dt := div_nonneg (by linarith) h0.le
    have f1 : ((n - 1 : ℕ) : ℝ) * dt ≤ T - s.m.t := by
      rw [hn, Nat.add_sub_cancel, ← le_div_iff₀ h0]; exact Nat.floor_le q0
    have f2 : T - s.m.t < n * dt := by
      rw [hn, ← div_lt_iff₀ h0]; push_cast; exact Nat.lt_floor_add_one _
    obtain ⟨s', e, ht, hi⟩ := key n s g (fun i hi => by
        have : (i : ℝ) ≤ ((n - 1 : ℕ) : ℝ) := by exact_mod_cast (by omega : i ≤ n - 1)
        have := mul_le_mul_of_nonneg_right this h0.le
        linarith) (by linarith)
    refine ⟨n, s', e, ht, hi, by rw [ht]; linarith, fun _ => ?_⟩
    rw [ht]
    have : (n : ℝ) = ((n - 1 : ℕ) : ℝ) + 1 := by rw [hn]; push_cast; simp
    rw [this]
    linarith
  · obtain ⟨s', e, ht, hi⟩ := key 0 s g (fun i hi => absurd hi (by omega)) (by simpa using not_le.mp hT)
    refine ⟨0, s', e, ht, hi, by rw [ht]; simpa using not_le.mp hT, fun h => absurd h hT⟩

/-- **C155 (adaptive step).** With two or more subdivisions the adaptive loop ends within every number `n` of iterations
with `n · min(dt, min_dt) > t_end - t`; no step and no call of the filter fails, and the loop ends less than one largest
step beyond the end time. -/
theorem C155_adaptive (R : Reliable hy c Gx Gw) {f : Filter} {sub retries : ℕ} {norm : ℤ} (hn : Known norm) (hs : 2 ≤ sub)
    (cf : f.minDt = c.minDt) (m0 : 0 < f.minDt) (hm : f.minDt ≤ f.maxDt) {s : Sim X W} {dt T : ℝ} (h0 : 0 < dt)
    (g : GoodMdl Gx Gw s.m) (es : Estimated s) (n : ℕ) (hl : T - s.m.t < n * min dt f.minDt) :
    ∃ s' dt', adaptiveLoop hy c f sub retries norm T n (s, dt) = .ok (some (s', dt')) ∧ T ≤ s'.m.t ∧
      (s.m.t < T → s'.m.t < T + max dt f.maxDt) ∧ GoodMdl Gx Gw s'.m := by
  have l0 : 0 < min dt f.minDt := lt_min h0 m0
  obtain ⟨p', e, hi, hc⟩ := loop_ends
    (cond := fun p : Sim X W × ℝ => ¬ (T : WithTop ℝ) ≤ (p.1.m.t : WithTop ℝ)) (body := adaptiveBody hy c f sub retries norm)
    (fun p => GoodMdl Gx Gw p.1.m ∧ Estimated p.1 ∧ min dt f.minDt ≤ p.2 ∧ p.2 ≤ max dt f.maxDt ∧
      (s.m.t < T → p.1.m.t < T + max dt f.maxDt))
    (fun p => p.1.m.t) (δ := min dt f.minDt) (T := T)
    (fun p hp hc => by
      obtain ⟨p', e, g', es', b1, b2, t1, t2⟩ := body_good (retries := retries) R hn hs cf hm l0 (min_le_right _ _)
        (le_max_right _ _) hp.1 hp.2.1 hp.2.2.1 hp.2.2.2.1
      refine ⟨p', e, ⟨g', es', b1, b2, fun _ => ?_⟩, t1⟩
      have : p.1.m.t < T := by
        by_contra h
        exact hc (WithTop.coe_le_coe.mpr (not_lt.mp h))
      linarith)
    (fun p hc => by
      by_contra h
      exact hc (WithTop.coe_le_coe.mpr (not_le.mp h).le))
    n (s := (s, dt)) ⟨g, es, min_le_left _ _, le_max_left _ _, fun h => by
      have : 0 < max dt f.maxDt := lt_max_of_lt_left h0
      show s.m.t < _
      linarith⟩ hl
  exact ⟨p'.1, p'.2, e, WithTop.coe_le_coe.mp (not_not.mp hc), hi.2.2.2.2, hi.1⟩

/-- **C155 (no end time).** Without inputs and without `t_end` the end time is infinite, and the loop does not end. -/
theorem C155_endless (R : Reliable hy c Gx Gw) {dt : ℝ} (h0 : 0 < dt) {s : Sim X W} (g : GoodMdl Gx Gw s.m) (n : ℕ) :
    fixedLoop hy c ⊤ dt n s = .ok none := by
  induction n generalizing s with
  | zero => simp only [fixedLoop, whileLoop]; rw [if_pos le_top]
  | succ n ih =>
    obtain ⟨s1, e1, g1⟩ := simStep_good R 1 0 1 (norm := 2) (Or.inr (Or.inr (Or.inl rfl))) h0 g
    have := ih g1
    unfold fixedLoop at this ⊢
    simp only [whileLoop]
    rw [if_pos le_top, e1]
    exact this

/-- **C155 (adaptive loop without subdivisions).** The second call of the step-size filter of a new simulation raises a
`TypeError`: there is no error estimate. -/
theorem C155_no_estimate (R : Reliable hy c Gx Gw) (f : Filter) (retries : ℕ) {norm : ℤ} (hn : Known norm) {s : Sim X W}
    {dt d0 T : ℝ} {e0 : Est} (h0 : 0 < dt) (g : GoodMdl Gx Gw s.m) (hd : s.dts = [d0]) (he : s.errs = [e0])
    (ht : s.m.t + dt < T) (n : ℕ) :
    adaptiveLoop hy c f 1 retries norm T (n + 2) (s, dt) = .error (.py .typeError) := by
  have one : ∀ s : Sim X W, GoodMdl Gx Gw s.m → ∃ s', simStep hy c 1 retries 1 norm dt s = .ok s' ∧ GoodMdl Gx Gw s'.m ∧
      s'.dts = push dt s.dts ∧ s'.errs = push .none s.errs ∧ s'.m.t = s.m.t + dt := by
    intro s g
    obtain ⟨s', e, g'⟩ := simStep_good R 1 retries 1 hn h0 g
    obtain ⟨m', err, ini, ea, ga, -⟩ := attempt_good (sub := 1) R hn h0 g
    have en : err = .none := by
      obtain ⟨-, -, h | h⟩ := attempt_ok ea
      · exact h.2.2
      · exact absurd h.1 (by omega)
    have e' := e
    have fin : finish hy (record dt m' err s) = .ok { record dt m' err s with iter := (record dt m' err s).iter + 1 } := by
      unfold finish
      rw [if_pos (by exact R.finite _ ga.1)]
    have es : s' = { record dt m' err s with iter := (record dt m' err s).iter + 1 } := by
      cases retries with
      | zero => simp only [simStep, ea] at e'; rw [fin] at e'; cases e'; rfl
      | succ r =>
        have hr : ¬ (err.rejected 1 ∧ 0.5 * dt > c.minDt) := by rw [en]; simp [Est.rejected]
        simp only [simStep, ea] at e'
        rw [if_neg hr, fin] at e'; cases e'; rfl
    refine ⟨s', e, g', ?_, ?_, ?_⟩
    · rw [es]; rfl
    · rw [es]; simp only [record, en]
    · rw [es]; exact (attempt_ok ea).1
  obtain ⟨s1, e1, g1, d1, r1, t1⟩ := one s g
  obtain ⟨s2, e2, g2, d2, r2, t2⟩ := one s1 g1
  have c1 : ¬ (T : WithTop ℝ) ≤ (s.m.t : WithTop ℝ) := fun h => by have := WithTop.coe_le_coe.mp h; linarith
  have c2 : ¬ (T : WithTop ℝ) ≤ (s1.m.t : WithTop ℝ) := fun h => by have := WithTop.coe_le_coe.mp h; linarith
  have b1 : adaptiveBody hy c f 1 retries norm (s, dt) = .ok (s1, dt) := by
    unfold adaptiveBody
    simp only [e1]
    rw [d1, hd]
    rfl
  have b2 : adaptiveBody hy c f 1 retries norm (s1, dt) = .error (.py .typeError) := by
    unfold adaptiveBody
    simp only [e2]
    rw [d2, r2, d1, r1, hd, he]
    rfl
  unfold adaptiveLoop
  simp only [whileLoop]
  rw [if_pos c1, b1]
  simp only []
  rw [if_pos c2, b2]

/-! ### Sound models -/

/-- The hydraulics of a sound model with good inputs never fail. -/
theorem reliable_sound {m : Model} {P : Plan} (sd : Sound m P) {c : Cfg Inputs}
    (gi : ∀ t dt, 0 < dt → GoodInputs m P { c.forcing t with dt := dt }) :
    Reliable (hydOf m P) c (fun s => ∀ I, m.min_depth ≤ s.h I) (fun w => CleanWork m w.1.mats) := by
  refine ⟨fun sv cur w dt t gx gw h0 => ?_, fun _ _ h => h, fun _ _ _ _ => rfl⟩
  have go : GoodObj m ⟨sv, cur, w.1, w.2⟩ := ⟨gw, gx⟩
  have h := C105_step_succeeds sd (gi t dt h0) false go
  have g' := go.next sd.cons h.choose_spec
  refine ⟨h.choose.cur, (h.choose.wk, h.choose.hid), ?_, g'.wet, g'.clean⟩
  simp only [hydOf]
  rw [dif_pos h]

/-- **C155 (sound models).** Both loops, for a sound model whose object is good. -/
theorem C155_sound {m : Model} {P : Plan} (sd : Sound m P) {c : Cfg Inputs}
    (gi : ∀ t dt, 0 < dt → GoodInputs m P { c.forcing t with dt := dt }) {s : Sim Hyd (Work × Hidden)}
    (wet : ∀ I, m.min_depth ≤ s.m.x.h I) (cw : CleanWork m s.m.w.1.mats) {dt T : ℝ} (h0 : 0 < dt) :
    (∃ n s', fixedLoop (hydOf m P) c T dt n s = .ok (some s') ∧ s'.m.t = s.m.t + n * dt ∧ T < s'.m.t ∧
      (s.m.t ≤ T → s'.m.t ≤ T + dt)) ∧
    ∀ (f : Filter) (sub retries : ℕ) (norm : ℤ), Known norm → 2 ≤ sub → f.minDt = c.minDt → 0 < f.minDt → f.minDt ≤ f.maxDt →
      Estimated s → ∀ n : ℕ, T - s.m.t < n * min dt f.minDt →
      ∃ s' dt', adaptiveLoop (hydOf m P) c f sub retries norm T n (s, dt) = .ok (some (s', dt')) ∧ T ≤ s'.m.t ∧
        (s.m.t < T → s'.m.t < T + max dt f.maxDt) := by
  have R := reliable_sound sd gi
  refine ⟨?_, fun f sub retries norm hn hs cf m0 hm es n hl => ?_⟩
  · obtain ⟨n, s', e, ht, -, h1, h2⟩ := C155_fixed (T := T) R h0 (s := s) ⟨wet, cw⟩
    exact ⟨n, s', e, ht, h1, h2⟩
  · obtain ⟨s', dt', e, h1, h2, -⟩ := C155_adaptive (T := T) (retries := retries) R hn hs cf m0 hm h0 (s := s) ⟨wet, cw⟩ es n hl
    exact ⟨s', dt', e, h1, h2⟩

/-- Settings for the example: constant forcing, smallest step 1 s. -/
def loopCfg : Cfg Inputs := ⟨60, 1, 1 / 400, 1, fun _ => reInp 1⟩

/-- Two superjunctions at 2 m and 1 m joined by a channel, constant forcing: an hour in steps of 60 s ends, between 3600 s
and 3660 s; with two subdivisions, ten retries and step sizes from 1 s to 200 s the adaptive loop ends within 3601
iterations, between 3600 s and 3800 s. -/
example : ∃ s : Sim Hyd (Work × Hidden), s.m.t = 0 ∧ s.m.x.H 0 = 2 ∧ s.m.x.H 1 = 1 ∧
    (∃ n s', fixedLoop (hydOf (inModel false) inPlan) loopCfg (3600 : ℝ) 60 n s = .ok (some s') ∧ 3600 < s'.m.t ∧
      s'.m.t ≤ 3660) ∧
    ∃ s' dt', adaptiveLoop (hydOf (inModel false) inPlan) loopCfg ⟨1 / 4, ⟨5 / 4, 1 / 2, -3 / 4, -1 / 4, -3 / 4⟩, 1, 200, 1 / 2, 3 / 2, 4 / 5, 2⟩ 2 10 (-1)
      (3600 : ℝ) 3601 (s, 60) = .ok (some (s', dt')) ∧ 3600 ≤ s'.m.t ∧ s'.m.t < 3800 := by
  set gv : Given := ⟨fun j => if j = 0 then 2 else 1, fun _ => 1, fun _ => 0, fun _ => 0⟩ with hgv
  have wet : ∀ I, (inModel false).min_depth ≤ gv.hJ I := fun _ => by norm_num [inModel, reModel, hgv]
  have g := blankGood wet
  have gi : ∀ t dt, 0 < dt → GoodInputs (inModel false) inPlan { loopCfg.forcing t with dt := dt } := fun t dt h =>
    ⟨h, fun p hp => by simp [inModel, reModel] at hp, fun a ha => by simp [inModel, reModel] at ha⟩
  let s : Sim Hyd (Work × Hidden) :=
    ⟨⟨0, 0, ((inModel false).blank gv).cur, (0, ((inModel false).blank gv).cur),
      (((inModel false).blank gv).wk, ((inModel false).blank gv).hid)⟩, 60, [60], [.val 0], 0⟩
  obtain ⟨⟨n, s1, e1, -, a1, b1⟩, had⟩ := C155_sound (inSound false) (c := loopCfg) gi (s := s) g.wet g.clean (dt := 60)
    (T := 3600) (by norm_num)
  obtain ⟨s2, dt2, e2, a2, b2⟩ := had ⟨1 / 4, ⟨5 / 4, 1 / 2, -3 / 4, -1 / 4, -3 / 4⟩, 1, 200, 1 / 2, 3 / 2, 4 / 5, 2⟩ 2 10 (-1) (Or.inr (Or.inr (Or.inr rfl)))
    le_rfl rfl (by norm_num) (by norm_num) ⟨rfl, by simp [s], by simp [s]⟩ 3601 (by norm_num [s])
  refine ⟨s, rfl, ?_, ?_, ⟨n, s1, e1, a1, (b1 (by norm_num [s])).trans (by norm_num)⟩, ⟨s2, dt2, e2, a2, ?_⟩⟩
  · change ((inModel false).start gv).H 0 = 2
    norm_num [Model.start, inModel, reModel, hgv]
  · change ((inModel false).start gv).H 1 = 1
    norm_num [Model.start, inModel, reModel, hgv]
  · have := b2 (by norm_num [s])
    norm_num at this
    exact this

end

end Pipedream.Driver
