import Verif.TopologyModel
import Verif.SweepModel

/-!
# The least-squares internal solver

`SuperLink.solve_internals_lsq` (`nsuperlink.py:1460-1509`), `numba_solve_internals_ls`
(`nsuperlink.py:2243-2268`) and the two flow estimates (`nsuperlink.py:3117-3142`).

numpy boolean masks: `a[mask]` is the list of entries of `a` where the mask is true, in order.
`np.linalg.solve` is modelled by its specification.
-/

namespace Pipedream.Lsq

open Pipedream.Sweep Pipedream.Topology

variable {K : Type*} [Field K] [LinearOrder K]

/-- `a[mask]` for arrays of length `N`. -/
def compress {α : Type*} (N : ℕ) (mask : ℕ → Bool) (a : ℕ → α) : List α :=
  ((List.range N).filter mask).map a

/-- Position of entry `I` in the compressed array. -/
def rank (mask : ℕ → Bool) (I : ℕ) : ℕ := ((List.range I).filter mask).length

/-- `a[mask] = v`. -/
def maskSet {α : Type*} (mask : ℕ → Bool) (v a : ℕ → α) (I : ℕ) : α :=
  if mask I then v (rank mask I) else a I

/-- `l[z]` with Python's negative indices; `none` outside the array (numba does not check bounds and
reads foreign memory there). -/
def readAt {α : Type*} (l : List α) (z : ℤ) : Option α :=
  if 0 ≤ z then l[z.toNat]? else if 0 ≤ z + l.length then l[(z + l.length).toNat]? else none

/-- Arrays of the two sweeps and the end depths. -/
structure Arrays (K : Type*) where
  U : ℕ → K
  V : ℕ → K
  W : ℕ → K
  X : ℕ → K
  Y : ℕ → K
  Z : ℕ → K
  hu : ℕ → K
  hd : ℕ → K

variable (t : Tables) (a : Arrays K)

/-- `_X = _X_Ik[~_is_start & ~_is_end]` (nsuperlink.py 1487). -/
def lsqX : List K := compress t.NI (fun I => !t.isStart I && !t.isEnd I) a.X

/-- `_U = _U_Ik[~_is_penult & ~_is_end]` (nsuperlink.py 1488). -/
def lsqU : List K := compress t.NI (fun I => !t.isPenult I && !t.isEnd I) a.U

/-- Junctions that are not the last of their superlink, in order; link `i` starts at the `i`-th one
(the index `~_is_end` in nsuperlink.py 1489–1492). -/
def notEnd (i : ℕ) : ℕ := (compress t.NI (fun I => !t.isEnd I) (fun I => I)).getD i 0

/-- `_b` before the end corrections (nsuperlink.py 1489–1493). -/
def lsqB0 (i : ℕ) : K :=
  - (a.W (notEnd t i) * a.hu (t.ki i)) + a.Z (notEnd t i) * a.hd (t.ki i) + a.Y (notEnd t i)
    - a.V (notEnd t i)

/-- `_b[_link_start] += _X_Ik[_is_start] * _h_uk` (nsuperlink.py 1494). -/
def lsqB1 (i : ℕ) : K :=
  if t.linkStart i then
    lsqB0 t a i + (compress t.NI t.isStart a.X).getD (rank t.linkStart i) 0 * a.hu (rank t.linkStart i)
  else lsqB0 t a i

/-- `_b[_link_end] -= _U_Ik[_is_penult] * _h_dk` (nsuperlink.py 1495). -/
def lsqB (i : ℕ) : K :=
  if t.linkEnd i then
    lsqB1 t a i - (compress t.NI t.isPenult a.U).getD (rank t.linkEnd i) 0 * a.hd (rank t.linkEnd i)
  else lsqB1 t a i

/-- `_Ak` (nsuperlink.py 2250–2253), from the entries `U c`, `X c` read for column `c`. -/
def lsqA (U X : ℕ → K) (r c : ℕ) : K := if r = c then U c else if r = c + 1 then - X c else 0

/-- `_AA = _Ak.T @ _Ak` with the diagonal repaired where it is zero (nsuperlink.py 2257, 2259–2262);
`n` is the number of links of the superlink. -/
def lsqAA (n : ℕ) (U X : ℕ → K) (c c' : ℕ) : K :=
  let s := ∑ r ∈ Finset.range n, lsqA U X r c * lsqA U X r c'
  if c = c' ∧ s = 0 then 1 else s

/-- `_Ab = _Ak.T @ _bk` (nsuperlink.py 2257). -/
def lsqAb (n : ℕ) (U X b : ℕ → K) (c : ℕ) : K := ∑ r ∈ Finset.range n, lsqA U X r c * b r

/-- What the loop body computes for superlink `k` (nsuperlink.py 2246–2263): `U`, `X` are the entries
read at `_k_1k[k] + i`, `h` is what `np.linalg.solve` returns. -/
structure LsqSolve (k : ℕ) (U X h : ℕ → K) : Prop where
  readU : ∀ i, i < t.nk k - 1 → readAt (lsqU t a) (t.k_1k k + i) = some (U i)
  readX : ∀ i, i < t.nk k - 1 → readAt (lsqX t a) (t.k_1k k + i) = some (X i)
  solve : ∀ c, c < t.nk k - 1 →
    ∑ c' ∈ Finset.range (t.nk k - 1), lsqAA (t.nk k) U X c c' * h c'
      = lsqAb (t.nk k) U X (fun r => lsqB t a (t.i_1k k + r)) c

/-- Depths (nsuperlink.py 2264, 1499–1503): the solved ones inside, the end depths at the ends, then the
minimum depth. `h k c` is the solution for superlink `k`. -/
def lsqDepths (mn : K) (h : ℕ → ℕ → K) (hPrev : ℕ → K) : ℕ → K :=
  let h0 := forRange t.NK (fun k hh I =>
    if t.start k + 1 ≤ I ∧ I < t.start k + t.nk k then h k (I - (t.start k + 1)) else hh I) hPrev
  let h1 := maskSet t.isStart a.hu h0
  let h2 := maskSet t.isEnd a.hd h1
  fun I => if h2 I < mn then mn else h2 I

/-- Flows (nsuperlink.py 1504–1506): mean of the backward estimate (3117–3128) and the forward estimate
(3130–3142). -/
def lsqFlows (h : ℕ → K) (i : ℕ) : K :=
  ((a.X (t.Ik i) * h (t.Ik i) + a.Y (t.Ik i) + a.Z (t.Ik i) * a.hd (t.ki i))
    + (a.U (t.Ik i) * h (t.Ik i + 1) + a.V (t.Ik i) + a.W (t.Ik i) * a.hu (t.ki i))) / 2

end Pipedream.Lsq
