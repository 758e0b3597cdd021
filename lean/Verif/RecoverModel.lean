import Verif.NnlsModel
import Verif.QualityModel

/-!
# Link values recovered from the recurrences

`superlink_flow_from_recurrence` (`nsuperlink.py:1511-1532` with `3117-3142`; `superlink.py:3733-3754` with
`3301-3305`, `3409-3413`) and `link_concentrations_from_recurrence` (`nquality.py:927-950`): every link value is computed
from the junction values at its two ends by the two recurrences.
-/

namespace Pipedream.Recover

open Pipedream.Topology Pipedream.Lsq Pipedream.Nnls

variable {K : Type*} [Field K] [LinearOrder K] (t : Tables) (a : Arrays K)

/-- `numba_Q_i_next_b` — nsuperlink.py 3117–3128. -/
def flowB (h : ℕ → K) (i : ℕ) : K := a.X (t.Ik i) * h (t.Ik i) + a.Y (t.Ik i) + a.Z (t.Ik i) * a.hd (t.ki i)

/-- `numba_Q_im1k_next_f` — nsuperlink.py 3130–3142. -/
def flowF (h : ℕ → K) (i : ℕ) : K :=
  a.U (t.Ik i) * h (t.Ik i + 1) + a.V (t.Ik i) + a.W (t.Ik i) * a.hu (t.ki i)

/-- Entry `i` of the junction indices kept by the mask `~_is_start` (superlink.py 3751). -/
def notStart (i : ℕ) : ℕ := (compress t.NI (fun I => !t.isStart I) (fun I => I)).getD i 0

/-- `Q_ik_b` of the base class — superlink.py 3747–3749 with 3301–3305. -/
def baseFlowB (h : ℕ → K) (i : ℕ) : K :=
  a.X (notEnd t i) * h (notEnd t i) + a.Y (notEnd t i) + a.Z (notEnd t i) * repeatNk t a.hd i

/-- `Q_ik_f` of the base class — superlink.py 3750–3753 with 3409–3413. -/
def baseFlowF (h : ℕ → K) (i : ℕ) : K :=
  a.U (notEnd t i) * h (notStart t i) + a.V (notEnd t i) + a.W (notEnd t i) * repeatNk t a.hu i

/-- `c_ik_b` of `link_concentrations_from_recurrence` — nquality.py 944–946: the arguments of `c_i_b` (1634)
are given in the order `X, c, Y, Z, c_Np1`. -/
def concB (c : ℕ → K) (i : ℕ) : K :=
  Quality.c_i_b (a.X (notEnd t i)) (c (notEnd t i)) (a.Y (notEnd t i)) (a.Z (notEnd t i))
    (repeatNk t (fun k => c (t.fin k)) i)

/-- `c_ik_f` of the same method — nquality.py 947–949: the arguments of `c_i_f` (1627) are given in the order
`U, c, V, W, c_1`. -/
def concF (c : ℕ → K) (i : ℕ) : K :=
  Quality.c_i_f (a.U (notEnd t i)) (c (notStart t i)) (a.V (notEnd t i)) (a.W (notEnd t i))
    (repeatNk t (fun k => c (t.start k)) i)

end Pipedream.Recover
