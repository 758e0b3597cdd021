import Verif.LinkModel
import Mathlib.Analysis.SpecialFunctions.Pow.Real

/-!
# Model of the suction head

`GreenAmpt._s2` and `GreenAmpt.suction_head` of `/repo/pipedream_solver/infiltration.py` 70–84: class methods for
computing the parameter `psi_f` from measured soil properties, called with numbers. A power of a negative number
is not modelled (the theorems take `theta_r ≤ theta_i`).
-/

namespace Pipedream.Infiltration

open Pipedream.Link

noncomputable section

/-- `_s2` — infiltration.py 70–75; `1 / lambda_o` and the last line are divisions of floats. -/
def s2 (theta_i theta_s theta_r Ks psi_b lam : ℝ) : Except PyErr ℝ := do
  let q ← pyDiv 1 lam
  let num := 2 * (theta_s - theta_i) * Ks * psi_b * ((theta_s - theta_r) ^ (q + 3) - (theta_i - theta_r) ^ (q + 3))
  let den := (lam * (theta_s - theta_r) ^ (q + 3)) * (q + 3)
  pyDiv num den

/-- `suction_head` — infiltration.py 77–84. -/
def suctionHead (theta_i theta_s theta_r Ks psi_b lam : ℝ) : Except PyErr ℝ := do
  let num ← s2 theta_i theta_s theta_r Ks psi_b lam
  let den := 2 * Ks * (theta_s - theta_i)
  pyDiv num den

end

end Pipedream.Infiltration
