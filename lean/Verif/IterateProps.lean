import Verif.ImplicitProps

/-!
# C160: which passes an iterated step makes

The rule by which `step` stops iterating (superlink.py 4128–4149), stated over the sequence of its passes.
-/

namespace Pipedream.Step

variable {m : Model} {P : Plan} {tol : ℝ} {inp : Inputs}

/-- Heads before pass `i + 1`: `H` before the first pass, then those of the last result. -/
def headsBefore (H : ℕ → ℝ) (os : ℕ → Obj) (i : ℕ) : ℕ → ℝ := if i = 0 then H else (os i).cur.H

/-- Objects `os 0, …, os r`: repeated passes, each changing some head by `tol` or more, except that the last one
changes none that much or is the `n`-th. -/
structure Repeats (m : Model) (P : Plan) (tol : ℝ) (inp : Inputs) (n : ℕ) (H : ℕ → ℝ) (os : ℕ → Obj) (r : ℕ) : Prop where
  le : r ≤ n
  pass : ∀ i, i < r → Calls1 m P false inp (os i) (os (i + 1))
  moving : ∀ i, i + 1 < r → ∃ a, a < m.M ∧ tol ≤ |headsBefore H os i a - (os (i + 1)).cur.H a|
  stop : r = n ∨ ∃ i, r = i + 1 ∧ ∀ a, a < m.M → |headsBefore H os i a - (os r).cur.H a| < tol

theorem notClose_iff {H H' : ℕ → ℝ} : ¬ HeadsClose m tol H H' ↔ ∃ a, a < m.M ∧ tol ≤ |H a - H' a| := by
  unfold HeadsClose; push Not; rfl

/-- The loop makes exactly such a sequence of passes. -/
theorem iterLoop_iff {n : ℕ} : ∀ {H : ℕ → ℝ} {o o' : Obj},
    IterLoop m P tol inp n H o o' ↔ ∃ r os, os 0 = o ∧ os r = o' ∧ Repeats m P tol inp n H os r := by
  induction n with
  | zero =>
    intro H o o'
    constructor
    · rintro rfl
      exact ⟨0, fun _ => o', rfl, rfl, le_rfl, by simp, by simp, .inl rfl⟩
    · rintro ⟨r, os, h0, hr, R⟩
      obtain rfl : r = 0 := Nat.le_zero.mp R.le
      exact hr.symm.trans h0
  | succ n ih =>
    intro H o o'
    constructor
    · rintro ⟨o1, h1, ⟨hc, rfl⟩ | ⟨hc, hl⟩⟩
      · refine ⟨1, fun i => if i = 0 then o else o', rfl, rfl, by omega, fun i hi => ?_, fun i hi => by omega,
          .inr ⟨0, rfl, ?_⟩⟩
        · obtain rfl : i = 0 := by omega
          exact h1
        · exact hc
      · obtain ⟨r, os, h0, hr, R⟩ := ih.mp hl
        refine ⟨r + 1, fun i => if i = 0 then o else os (i - 1), rfl, hr, by have := R.le; omega, fun i hi => ?_,
          fun i hi => ?_, ?_⟩
        · rcases i with _ | i
          · simpa [h0] using h1
          · simpa using R.pass i (by omega)
        · rcases i with _ | i
          · simpa [headsBefore, h0] using notClose_iff.mp hc
          · obtain ⟨a, ha, h⟩ := R.moving i (by omega)
            refine ⟨a, ha, ?_⟩
            rcases i with _ | i
            · simpa [headsBefore, h0] using h
            · simpa [headsBefore] using h
        · rcases R.stop with h | ⟨i, hi, h⟩
          · exact .inl (by omega)
          · refine .inr ⟨i + 1, by omega, fun a ha => ?_⟩
            have := h a ha
            rcases i with _ | i
            · simpa [headsBefore, h0] using this
            · simpa [headsBefore] using this
    · rintro ⟨r, os, h0, hr, R⟩
      rcases r with _ | r
      · rcases R.stop with h | ⟨i, h, -⟩ <;> omega
      · refine ⟨os 1, by rw [← h0]; exact R.pass 0 (by omega), ?_⟩
        rcases r with _ | r
        · by_cases hc : HeadsClose m tol H (os 1).cur.H
          · exact .inl ⟨hc, hr.symm⟩
          · refine .inr ⟨hc, ih.mpr ⟨0, fun i => os (i + 1), rfl, hr, by omega, by simp, by simp, .inl ?_⟩⟩
            rcases R.stop with h | ⟨i, hi, h⟩
            · omega
            · obtain rfl : i = 0 := by omega
              exact absurd h hc
        · have h1 := R.moving 0 (by omega)
          refine .inr ⟨notClose_iff.mpr h1, ih.mpr ⟨r + 1, fun i => os (i + 1), rfl, hr, by have := R.le; omega,
            fun i hi => R.pass (i + 1) (by omega), fun i hi => ?_, ?_⟩⟩
          · obtain ⟨a, ha, h⟩ := R.moving (i + 1) (by omega)
            refine ⟨a, ha, ?_⟩
            rcases i with _ | i <;> simpa [headsBefore] using h
          · rcases R.stop with h | ⟨i, hi, h⟩
            · exact .inl (by omega)
            · refine .inr ⟨r, rfl, fun a ha => ?_⟩
              obtain rfl : i = r + 1 := by omega
              have := h a ha
              rcases r with _ | r <;> simpa [headsBefore] using this

/-- **C160 (when the iteration ends).** `step(num_iter=n, head_tol=tol)` makes a first pass, which saves the state, and
then passes which do not, at most `n` in all. It goes on as long as the last pass changed some head by `tol` or more,
measured against the heads of the pass before it, and for the first pass against the heads before the step. -/
theorem C160_passes {n : ℕ} (hn : 1 ≤ n) {o o' : Obj} :
    StepIter m P n tol inp o o' ↔ ∃ (r : ℕ) (os : ℕ → Obj), Calls1 m P true inp o (os 0) ∧ os r = o' ∧ r + 1 ≤ n ∧
      (∀ i, i < r → Calls1 m P false inp (os i) (os (i + 1))) ∧
      (∀ i, i < r → ∃ a, a < m.M ∧
        tol ≤ |(os i).cur.H a - (if i = 0 then (os 0).saved.H a else (os (i - 1)).cur.H a)|) ∧
      (r + 1 = n ∨ ∀ a, a < m.M →
        |(os r).cur.H a - (if r = 0 then (os 0).saved.H a else (os (r - 1)).cur.H a)| < tol) := by
  constructor
  · rintro ⟨o1, h1, ⟨hc, rfl⟩ | ⟨hc, hl⟩⟩
    · refine ⟨0, fun _ => o', h1, rfl, by omega, by simp, by simp, ?_⟩
      rcases hc with h | h
      · exact .inl (by omega)
      · exact .inr h
    · push Not at hc
      obtain ⟨r, os, h0, hr, R⟩ := iterLoop_iff.mp hl
      subst h0
      refine ⟨r, os, h1, hr, by have := R.le; omega, R.pass, fun i hi => ?_, ?_⟩
      · rcases i with _ | i
        · exact notClose_iff.mp hc.2
        · obtain ⟨a, ha, h⟩ := R.moving i hi
          refine ⟨a, ha, ?_⟩
          rw [abs_sub_comm]
          rcases i with _ | i <;> simpa [headsBefore] using h
      · rcases R.stop with h | ⟨i, rfl, h⟩
        · exact .inl (by omega)
        · refine .inr fun a ha => ?_
          have := h a ha
          rw [abs_sub_comm] at this
          rcases i with _ | i <;> simpa [headsBefore] using this
  · rintro ⟨r, os, h1, hr, hle, hp, hm, hs⟩
    refine ⟨os 0, h1, ?_⟩
    rcases r with _ | r
    · refine .inl ⟨?_, hr.symm⟩
      rcases hs with h | h
      · exact .inl (by omega)
      · exact .inr h
    · refine .inr ⟨?_, iterLoop_iff.mpr ⟨r + 1, os, rfl, hr, by omega, hp, fun i hi => ?_, ?_⟩⟩
      · push Not
        exact ⟨by omega, notClose_iff.mpr (hm 0 (by omega))⟩
      · obtain ⟨a, ha, h⟩ := hm (i + 1) (by omega)
        refine ⟨a, ha, ?_⟩
        rw [abs_sub_comm]
        rcases i with _ | i <;> simpa [headsBefore] using h
      · rcases hs with h | h
        · exact .inl (by omega)
        · refine .inr ⟨r, rfl, fun a ha => ?_⟩
          have := h a ha
          rw [abs_sub_comm]
          rcases r with _ | r <;> simpa [headsBefore] using this

/-- A concrete case: the two tanks of `lakeObj`. -/
example : ∃ o', StepIter (inModel true) inPlan 5 1 lakeInp lakeObj o' ∧ ∃ (r : ℕ) (os : ℕ → Obj),
    Calls1 (inModel true) inPlan true lakeInp lakeObj (os 0) ∧ os r = o' ∧ r + 1 ≤ 5 := by
  obtain ⟨o', h⟩ := (C160_friction_ignored (numIter := 5) one_pos).1
  obtain ⟨r, os, h1, h2, h3, -⟩ := (C160_passes (by norm_num)).mp h
  exact ⟨o', h, r, os, h1, h2, h3⟩

end Pipedream.Step
