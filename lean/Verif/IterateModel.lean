import Verif.InitialModel

/-!
# Model of `step` with several iterations

`SuperLink.step` with `num_iter > 1` repeats its pass with the state before the step kept as the saved one
(`/repo/pipedream_solver/superlink.py` 4120–4150). `DriverModel` has the same loop over abstract hydraulics; here
it runs on the object of `WholeModel`. The clock and the counter, which come out as after one pass (C46), are
left out.
-/

namespace Pipedream.Step

noncomputable section

/-- `(np.abs(H_j_next - self.H_j) < head_tol).all()` — superlink.py 4133–4134, 4146–4147. -/
def HeadsClose (m : Model) (tol : ℝ) (H H' : ℕ → ℝ) : Prop := ∀ i, i < m.M → |H i - H' i| < tol

/-- The loop of `step` — superlink.py 4135–4149; `Hn` is `H_j_next`. -/
def IterLoop (m : Model) (P : Plan) (tol : ℝ) (inp : Inputs) : ℕ → (ℕ → ℝ) → Obj → Obj → Prop
  | 0, _, o, o' => o' = o
  | n + 1, Hn, o, o' => ∃ o1, Calls1 m P false inp o o1 ∧
      ((HeadsClose m tol Hn o1.cur.H ∧ o' = o1) ∨
        (¬ HeadsClose m tol Hn o1.cur.H ∧ IterLoop m P tol inp n o1.cur.H o1 o'))

/-- `step(..., num_iter, head_tol)` — superlink.py 4120–4150. The first comparison is with the saved heads, those
before the step. -/
def StepIter (m : Model) (P : Plan) (numIter : ℕ) (tol : ℝ) (inp : Inputs) (o o' : Obj) : Prop :=
  ∃ o1, Calls1 m P true inp o o1 ∧
    (((numIter ≤ 1 ∨ HeadsClose m tol o1.cur.H o1.saved.H) ∧ o' = o1) ∨
      (¬ (numIter ≤ 1 ∨ HeadsClose m tol o1.cur.H o1.saved.H) ∧ IterLoop m P tol inp (numIter - 1) o1.cur.H o1 o'))

end

end Pipedream.Step
