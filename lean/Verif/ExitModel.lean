import Verif.GeometryModel
import Mathlib.Analysis.SpecialFunctions.Log.Basic

/-!
# Exit hydraulics of superlinks (`exit_hydraulics=True`)

`SuperLink.exit_conditions`, `solve_critical_depth`, `solve_exit_hydraulics`, `_critical_depth`
(superlink.py 3536–3576, 3605–3642) and their place in `_solve_step` (superlink.py 4069–4073).
nSuperLink inherits them.

`scipy.optimize.brentq` is a parameter: any function that raises `ValueError` when the two ends of the
bracket have the same strict sign and otherwise returns a zero inside the bracket (`BrentSpec`; exact
convergence is the simplification). `np.asscalar` (3635) is taken as in numpy before 1.23; later versions
do not have it and every call that gets this far raises `AttributeError`.
-/

namespace Pipedream.Exit

open Pipedream.Geometry
open Pipedream.Link (PyErr)

/-- `Circular.B_ik(_h, _h, d)` with the default `pslot=0.001` — geometry.py 94–122. -/
noncomputable def exitWidth (h d : ℝ) : ℝ := circularB h h d (1 / 1000)

/-- `Circular.A_ik(_h, _h, d)` — geometry.py 25–49 (same formula as `ngeometry.Circular_A_ik`). -/
noncomputable def exitArea (h d : ℝ) : ℝ := circularA h h d

/-- Argument of the logarithm in `_critical_depth` — superlink.py 3635–3636. -/
noncomputable def critArg (Q h d : ℝ) : ℝ := Q ^ 2 * exitWidth h d / (9.81 * exitArea h d ^ 3)

/-- `np.log` of a non-negative number: `-inf` at zero. -/
noncomputable def npLog (x : ℝ) : WithBot ℝ := if x = 0 then ⊥ else (Real.log x : ℝ)

/-- `_critical_depth(h, Q, d)` — superlink.py 3632–3636. -/
noncomputable def critFn (Q d h : ℝ) : WithBot ℝ := npLog (critArg Q h d)

/-- What `scipy.optimize.brentq(f, a, b)` guarantees (superlink.py 3569–3573). -/
structure BrentSpec (f : ℝ → WithBot ℝ) (a b : ℝ) (r : Except PyErr ℝ) : Prop where
  same_sign : ((f a < 0 ∧ f b < 0) ∨ (0 < f a ∧ 0 < f b)) → r = .error .valueError
  root : ¬ ((f a < 0 ∧ f b < 0) ∨ (0 < f a ∧ 0 < f b)) → ∃ x, r = .ok x ∧ a ≤ x ∧ x ≤ b ∧ f x = 0

/-- Arrays read and written by the exit computations. `crown k` is `_g1_ik[_i_nk][k]`. -/
structure St where
  NK : ℕ
  crown : ℕ → ℝ
  zInv : ℕ → ℝ
  Jd : ℕ → ℕ
  H : ℕ → ℝ
  Qd : ℕ → ℝ
  hd : ℕ → ℝ
  hc : ℕ → ℝ
  hn : ℕ → ℝ
  mn : ℝ

/-- Depth of the downstream superjunction above the exit invert (superlink.py 3548, 3619). -/
def St.hj (s : St) (k : ℕ) : ℝ := s.H (s.Jd k) - s.zInv k

/-- `_exit_conditions` — superlink.py 3536–3549. -/
noncomputable def St.isExit (s : St) (k : ℕ) : Bool := decide (s.hj k < s.crown k)

/-- `solve_critical_depth` — superlink.py 3551–3576; `brent Q d` is the call of `brentq` on
`[eps, d]`. -/
noncomputable def solveCritical (brent : ℝ → ℝ → Except PyErr ℝ) (s : St) : Except PyErr (ℕ → ℝ) :=
  (List.range s.NK).foldlM (fun hc k =>
    if s.isExit k then (brent (s.Qd k) (s.crown k)).map (fun x => upd hc k x) else .ok hc) (fun _ => 0)

/-- `solve_exit_hydraulics` — superlink.py 3605–3630: the masked writes in their order, per superlink. -/
noncomputable def exitDepth (s : St) (k : ℕ) : ℝ :=
  let backwater := s.hj k > s.hc k ∧ s.isExit k = true
  let mild := (¬ backwater ∧ s.hn k > s.hc k) ∧ s.isExit k = true
  let critical := (¬ backwater ∧ s.hn k = s.hc k) ∧ s.isExit k = true
  let h := s.hd k
  open Classical in
  let h := if backwater then s.hj k else h
  let h := if mild then s.hc k else h
  let h := if critical then s.hc k else h
  if h < s.mn then s.mn else h

/-- The block run by `_solve_step` when `_exit_hydraulics` is set — superlink.py 4069–4073.
`solve_normal_depth` is commented out there (4072), so `_h_n` is never written after the constructor set
it to zero (superlink.py 751). -/
noncomputable def exitStep (brent : ℝ → ℝ → Except PyErr ℝ) (s : St) : Except PyErr St :=
  (solveCritical brent s).map fun hc =>
    let s' := { s with hc := hc }
    { s' with hd := exitDepth s' }

end Pipedream.Exit
