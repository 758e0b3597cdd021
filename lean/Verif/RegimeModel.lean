import Verif.BaseInternalsModel
import Verif.DiagnosticsModel

/-!
# Flow regime of superlinks

`compute_flow_regime` (superlink.py 2040–2068) and the two options of the base class that read it.
-/

namespace Pipedream.Base

open Pipedream.Sweep Pipedream.Topology Pipedream.Diag

noncomputable section

/-- `_Fr_ik` — superlink.py 2055; velocities by `numba_u_ik` (nsuperlink.py 2269–2278). -/
def linkFroude (g : ℝ) (Q A B : ℕ → ℝ) (i : ℕ) : ℝ := froude g (safeDivide (Q i) (A i)) (A i) (B i)

/-- `_Fr_k = np.zeros(NK); np.add.at(_Fr_k, _ki, _Fr_ik); _Fr_k /= nk` — superlink.py 2054–2057. -/
def superFroude (t : Tables) (Fr : ℕ → ℝ) (k : ℕ) : ℝ := addAt (fun _ => (0 : ℝ)) t.ki Fr t.NL k / t.nk k

/-- `_supercritical = (_Fr_k >= 1)[_kI]` — superlink.py 2059. -/
def supercritical (t : Tables) (Fr : ℕ → ℝ) (I : ℕ) : Bool := decide (1 ≤ superFroude t Fr (t.kI I))

/-- The attribute `_supercritical` after a pass: written by `compute_flow_regime`, which `_setup_step` calls only with
`inertial_damping` (superlink.py 4034–4035, 2067). The constructor does not create it: `none`. -/
def passRegime (t : Tables) (damp : Bool) (Fr : ℕ → ℝ) (old : Option (ℕ → Bool)) : Option (ℕ → Bool) :=
  if damp then some (supercritical t Fr) else old

/-- `solve_internals_forwards(supercritical_only=only)` — superlink.py 3230–3231, 3251–3252. The outer `none` is the
`AttributeError` of `self._supercritical`, the inner one lack of fuel. -/
def forwardsOnly {K : Type*} [Field K] [LinearOrder K] (t : Tables) (f : Fwd K) (bw : Bwd K) (x : Ends K) (only : Bool)
    (reg : Option (ℕ → Bool)) (fuel : ℕ) (s : HQ K) : Option (Option (HQ K)) :=
  if only then reg.map fun sup => marchForwards t f bw x sup fuel s
  else some (marchForwards t f bw x (fun _ => true) fuel s)

/-- `solve_internals_backwards(subcritical_only=only)` — superlink.py 3338–3339. -/
def backwardsOnly {K : Type*} [Field K] [LinearOrder K] (t : Tables) (f : Fwd K) (bw : Bwd K) (x : Ends K) (only : Bool)
    (reg : Option (ℕ → Bool)) (fuel : ℕ) (s : HQ K) : Option (Option (HQ K)) :=
  if only then reg.map fun sup => marchBackwards t f bw x (fun I => !sup I) fuel s
  else some (marchBackwards t f bw x (fun _ => true) fuel s)

end

end Pipedream.Base
