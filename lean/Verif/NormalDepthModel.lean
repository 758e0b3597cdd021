import Verif.ExitModel
import Mathlib.Analysis.SpecialFunctions.Pow.Real

/-!
# Normal depth at the exits of superlinks

`SuperLink.solve_normal_depth` and `_normal_depth` (superlink.py 3578–3603, 3638–3641). The call in `_solve_step` is commented out
(superlink.py 4072); the method is public and `solve_exit_hydraulics` reads the array it fills.
-/

namespace Pipedream.Exit

open Pipedream.Geometry

/-- `Circular.Pe_ik(h, h, d)` — geometry.py 52–75 (same formula as `ngeometry.Circular_Pe_ik`). -/
noncomputable def exitPerimeter (h d : ℝ) : ℝ := circularPe h h d

/-- `_normal_depth(h, Q, d, n, S_o)` — superlink.py 3638–3641. `none` is a number that is not finite: the root of a negative slope,
the division by the perimeter of an empty section, the division by a roughness of zero. -/
noncomputable def normalFn (Q d n S h : ℝ) : Option ℝ :=
  if S < 0 ∨ exitPerimeter h d = 0 ∨ n = 0 then none
  else some (Q - S ^ (1 / 2 : ℝ) * exitArea h d ^ (5 / 3 : ℝ) / exitPerimeter h d ^ (2 / 3 : ℝ) / n)

/-- `solve_normal_depth` — superlink.py 3578–3603: zeros, then the exits get what `newton`, started from their present depths,
returns. `newton Q d n S h` is the entry of `scipy.optimize.newton(self._normal_depth, h, args=(Q, d, n, S))`; `n k`, `S k` are
roughness and slope of the last link of superlink `k`. -/
noncomputable def solveNormal (newton : ℝ → ℝ → ℝ → ℝ → ℝ → ℝ) (n S : ℕ → ℝ) (s : St) : St :=
  { s with hn := fun k => if s.isExit k then newton (s.Qd k) (s.crown k) (n k) (S k) (s.hd k) else 0 }

end Pipedream.Exit
