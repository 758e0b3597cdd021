import Verif.Basic

/-!
# Model of table lookups

`interpolate_sample` of `/repo/pipedream_solver/nutils.py`, `interpolate_geometry` of
`/repo/pipedream_solver/ngeometry.py`, tabular and functional storages of
`/repo/pipedream_solver/nsuperlink.py` and the way `configure_storages` lays the tables out.

A table of `n` entries is a pair of functions on `ℕ`; only the entries below `n` are meaningful.
-/

namespace Pipedream.Interp

variable {K : Type*} [Field K] [LinearOrder K]

/-- `np.searchsorted(xp, x)` (side `'left'`), trusted library call given by its specification for a
sorted array: the first index whose entry is not below `x`, `n` if there is none. -/
def searchsorted (n : ℕ) (xp : ℕ → K) (x : K) : ℕ :=
  Nat.find (⟨n, Or.inl le_rfl⟩ : ∃ i, n ≤ i ∨ x ≤ xp i)

/-- The two interpolation methods accepted by `Simulation` (simulation.py 115–120): `linear` is 1,
`nearest` is 0. -/
inductive Method
  | nearest
  | linear
  deriving DecidableEq

/-- `interpolate_sample` — nutils.py 6–38; `interpolate_geometry` — ngeometry.py 1201–1234 is the same
code. `fp` is one column of the sample matrix (the numpy statements act on every column alike). -/
def interpolate (m : Method) (n : ℕ) (xp fp : ℕ → K) (x : K) : K :=
  let ix := searchsorted n xp x
  if ix = 0 then fp 0
  else if ix ≥ n then fp (n - 1)
  else
    let dx_0 := x - xp (ix - 1)
    let dx_1 := xp ix - x
    match m with
    | .linear =>
      let frac := dx_0 / (dx_0 + dx_1)
      (1 - frac) * fp (ix - 1) + frac * fp ix
    | .nearest => if |dx_0| ≤ |dx_1| then fp (ix - 1) else fp ix

/-- `A.min()` over the first `m + 1` entries. -/
def tabMin (f : ℕ → K) : ℕ → K
  | 0 => f 0
  | m + 1 => min (tabMin f m) (f (m + 1))

/-- `A.max()` over the first `m + 1` entries. -/
def tabMax (f : ℕ → K) : ℕ → K
  | 0 => f 0
  | m + 1 => max (tabMax f m) (f (m + 1))

/-- One element of `numba_compute_tabular_storage_areas` — nsuperlink.py 1977–2001. `hs`, `As` are the
slices `h_range`, `A_range` of length `n`. -/
def tabularArea (n : ℕ) (hs As : ℕ → K) (h : K) : K :=
  let ix := searchsorted n hs h
  if ix = 0 then tabMin As (n - 1)
  else if ix ≥ n then tabMax As (n - 1)
  else
    let dx_0 := h - hs (ix - 1)
    let dx_1 := hs ix - h
    let frac := dx_0 / (dx_0 + dx_1)
    (1 - frac) * As (ix - 1) + frac * As ix

/-- One element of `numba_compute_tabular_storage_volumes` — nsuperlink.py 2003–2032. -/
def tabularVolume (n : ℕ) (hs As Vs : ℕ → K) (h : K) : K :=
  let ix := searchsorted n hs h
  if ix = 0 then tabMin Vs (n - 1)
  else if ix ≥ n then tabMax Vs (n - 1) + tabMax As (n - 1) * (h - tabMax hs (n - 1))
  else
    let dx_0 := h - hs (ix - 1)
    let dx_1 := hs ix - h
    let frac := dx_0 / (dx_0 + dx_1)
    (1 - frac) * Vs (ix - 1) + frac * Vs ix

/-- `scipy.integrate.cumtrapz(y, x, initial=0.)`, trusted library call given by its definition: the
running trapezoidal integral of `y` over `x`. -/
def cumtrapz (y x : ℕ → K) : ℕ → K
  | 0 => 0
  | i + 1 => cumtrapz y x i + (x (i + 1) - x i) * (y (i + 1) + y i) / 2

/-- The volume table of a tabular storage: `V = scipy.integrate.cumtrapz(h, A, initial=0.)` —
nsuperlink.py 453, storage.py 65. -/
def storageVs (hs As : ℕ → K) : ℕ → K := cumtrapz hs As

end Pipedream.Interp
