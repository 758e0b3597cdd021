import Verif.TopologyProps

/-!
# Positions of the junctions along their superlinks

`SuperLink.__init__` (`pipedream_solver/superlink.py:499-501`).
-/

namespace Pipedream.Topology

variable {K : Type*} [Field K]

/-- Number of `true` entries of a mask among its first `I`. -/
def maskRank (mask : ℕ → Bool) (I : ℕ) : ℕ := ((Finset.range I).filter fun I' => mask I' = true).card

/-- numpy assignment `a[mask] = val` for a boolean `mask` of length `N` and `val` of length `M`: the values are taken one after
another; one value is used for all places; any other number raises (`none`). -/
def maskAssign (N : ℕ) (mask : ℕ → Bool) (M : ℕ) (val a : ℕ → K) : Option (ℕ → K) :=
  if M = maskRank mask N ∨ M = 1 then
    some fun I => if I < N ∧ mask I = true then val (if M = 1 then 0 else maskRank mask I) else a I
  else none

/-- `links.groupby('k')['dx'].cumsum()` (superlink.py 500): sums within the superlink in the order of the rows. -/
def groupCumsum (ki : ℕ → ℕ) (dx : ℕ → K) (i : ℕ) : K :=
  ∑ i' ∈ (Finset.range (i + 1)).filter (fun i' => ki i' = ki i), dx i'

/-- `_x_Ik` (superlink.py 499–501). -/
def Tables.positions (t : Tables) (dx_uk dx : ℕ → K) : Option (ℕ → K) :=
  match maskAssign t.NI (fun I => !t.isStart I) t.NL (fun i => groupCumsum t.ki dx i + dx_uk (t.ki i)) (fun _ => 0) with
  | none => none
  | some x => maskAssign t.NI t.isStart t.NK dx_uk x

end Pipedream.Topology
