import Verif.LsqModel

/-!
# The non-negative least-squares internal solver (`method='nnls'`)

`SuperLink.solve_internals_nnls` (superlink.py 3415–3470, inherited by nSuperLink), the two flow estimates
(nsuperlink.py 1511–1532, 3117–3142), and the two redundant ways of recovering depths from flows:
`superlink_depth_from_recurrence` (superlink.py 3756–3787) and `solve_superlink_depths_alt`
(superlink.py 3167–3196).

`scipy.optimize.nnls` is modelled by its specification (`IsNNLS`): among the non-negative vectors one with
the smallest sum of squared residuals.
-/

namespace Pipedream.Nnls

open Pipedream.Sweep Pipedream.Topology Pipedream.Lsq

variable {K : Type*} [Field K] [LinearOrder K]

variable (t : Tables) (a : Arrays K)

/-- `v[sel == k]` for two arrays of equal length. -/
def pick (k : ℕ) (v : List K) (sel : List ℕ) : List K := ((v.zip sel).filter (fun p => p.2 == k)).map (·.1)

/-- `_kk = _ki[~_link_end]` (superlink.py 3437). -/
def kk : List ℕ := compress t.NL (fun i => !t.linkEnd i) t.ki

/-- `_U[k_k]` (superlink.py 3440, 3454, 3457): `_U` is the same expression as in the least-squares
solver. -/
def rowU (k : ℕ) : List K := pick k (lsqU t a) (kk t)

/-- `_X[k_k]` (superlink.py 3439, 3454, 3458). -/
def rowX (k : ℕ) : List K := pick k (lsqX t a) (kk t)

/-- `_b[i_k]` (superlink.py 3441–3447, 3453, 3459); `_b` is built by the same statements as in the
least-squares solver (`lsqB`). -/
def rowB (k : ℕ) : List K := compress t.NL (fun i => t.ki i == k) (lsqB t a)

/-- `Ak` (superlink.py 3455–3458): a `n × (n-1)` array in row-major order, filled through `.flat`:
positions `0, n, 2n, …` receive `_U[k_k]` and positions `n-1, 2n-1, …` receive `-_X[k_k]`. -/
def flatA (n : ℕ) (U X : ℕ → K) (p : ℕ) : K :=
  let A0 := if p % n = 0 then U (p / n) else 0
  if n - 1 ≤ p ∧ (p - (n - 1)) % n = 0 then - X ((p - (n - 1)) / n) else A0

/-- Entry `(r, c)` of `Ak`. -/
def nnlsA (n : ℕ) (U X : ℕ → K) (r c : ℕ) : K := flatA n U X (r * (n - 1) + c)

/-- Sum of squared residuals of `Ak h = bk`. -/
def sse (n : ℕ) (U X b h : ℕ → K) : K :=
  ∑ r ∈ Finset.range n, (∑ c ∈ Finset.range (n - 1), nnlsA n U X r c * h c - b r) ^ 2

/-- Specification of `scipy.optimize.nnls(Ak, bk)` (superlink.py 3460). -/
structure IsNNLS (n : ℕ) (U X b h : ℕ → K) : Prop where
  nonneg : ∀ c, c < n - 1 → 0 ≤ h c
  best : ∀ h', (∀ c, c < n - 1 → 0 ≤ h' c) → sse n U X b h ≤ sse n U X b h'

/-- What the loop body computes for superlink `k` (superlink.py 3449–3460). -/
def NnlsSolve (k : ℕ) (h : ℕ → K) : Prop :=
  IsNNLS (t.nk k) (fun c => (rowU t a k).getD c 0) (fun c => (rowX t a k).getD c 0)
    (fun r => (rowB t a k).getD r 0) h

/-- Depths (superlink.py 3461, 3463–3464): the solved ones at the interior junctions of each superlink,
in order, then the end depths. There is no minimum depth here. -/
def nnlsDepths (h : ℕ → ℕ → K) (hPrev : ℕ → K) : ℕ → K :=
  let h0 := forRange t.NK (fun k hh =>
    maskSet (fun I => t.kI I == k && !t.isStart I && !t.isEnd I) (h k) hh) hPrev
  let h1 := maskSet t.isStart a.hu h0
  maskSet t.isEnd a.hd h1

/-- Flows (superlink.py 3466–3467). -/
def nnlsFlows (h : ℕ → K) (i : ℕ) : K := lsqFlows t a h i

/-- `np.repeat(v, nk)[i]` (superlink.py 3777, 3779). -/
def repeatNk (v : ℕ → K) (i : ℕ) : K :=
  ((List.range t.NK).flatMap (fun k => List.replicate (t.nk k) (v k))).getD i 0

/-- Depth at a junction from the flow of the link after it (superlink.py 3403–3407, 3776–3777), before
the ends are overwritten: entry `i` of the array assigned to `h_Ik_b[~_is_end]`. -/
def depthB (Q : ℕ → K) (i : ℕ) : K :=
  safeDivide (Q i - a.Y (notEnd t i) - a.Z (notEnd t i) * repeatNk t a.hd i) (a.X (notEnd t i))

/-- Depth at a junction from the flow of the link before it (superlink.py 3295–3299, 3778–3779): entry `i` of
the array assigned to `h_Ik_f[~_is_start]`. -/
def depthF (Q : ℕ → K) (i : ℕ) : K :=
  safeDivide (Q i - a.V (notEnd t i) - a.W (notEnd t i) * repeatNk t a.hu i) (a.U (notEnd t i))

/-- `h_Ik_b` of `superlink_depth_from_recurrence` (superlink.py 3772–3787), `hB0` being the uninitialised
array. -/
def depthsB (mn : K) (Q hB0 : ℕ → K) : ℕ → K :=
  let h0 := maskSet (fun I => !t.isEnd I) (depthB t a Q) hB0
  let h1 := maskSet t.isStart a.hu h0
  let h2 := maskSet t.isEnd a.hd h1
  fun I => max (h2 I) mn

/-- `h_Ik_f` of the same method. -/
def depthsF (mn : K) (Q hF0 : ℕ → K) : ℕ → K :=
  let h0 := maskSet (fun I => !t.isStart I) (depthF t a Q) hF0
  let h1 := maskSet t.isStart a.hu h0
  let h2 := maskSet t.isEnd a.hd h1
  fun I => max (h2 I) mn

/-- `solve_superlink_depths_alt` for one superlink (superlink.py 3187–3192); a zero determinant is replaced by
infinity, so the result is then zero. -/
def endDepthsAlt (X1 Y1 Z1 UN VN WN Qu Qd : K) : K × K :=
  let det := X1 * UN - Z1 * WN
  (safeDivide (UN * (Qu - Y1) - Z1 * (Qd - VN)) det, safeDivide (-WN * (Qu - Y1) + X1 * (Qd - VN)) det)

end Pipedream.Nnls
