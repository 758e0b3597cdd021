import Verif.Basic
import Mathlib.Order.Lattice
import Mathlib.Algebra.Order.Field.Basic

/-!
# Model of `visualization.py`

`/repo/pipedream_solver/visualization.py`: which polygons the plots consist of, where they are, and which axes limits are
set. Colours, line styles and the drawing itself are matplotlib's. Exact arithmetic.
-/

namespace Pipedream.Visual

variable {K : Type*} [Field K] [LinearOrder K]

/-- A junction of a superlink as drawn: position, invert, depth. -/
structure Pt (K : Type*) where
  x : K
  z : K
  h : K

/-- What `plot_profile` reads: the columns `sj_0`, `sj_1` of `superlinks` at labels `0 … NK-1`, the junctions of each superlink
in order (`x_Ik`, `_z_inv_Ik`, `h_Ik` where `_kI == k`; the constructor gives every superlink a first junction, so there is one), `_dx_k`, `H_j`, `_z_inv_j`, and `M` superjunctions. -/
structure Prof (K : Type*) where
  M : ℕ
  NK : ℕ
  sj0 : ℕ → ℕ
  sj1 : ℕ → ℕ
  first : ℕ → Pt K
  rest : ℕ → List (Pt K)
  dx : ℕ → K
  H : ℕ → K
  z : ℕ → K

def Prof.pts {K : Type*} (p : Prof K) (k : ℕ) : List (Pt K) := p.first k :: p.rest k

/-- A shape: the four corners of a polygon, or the corners of the polygons of a superlink. -/
inductive Shape (K : Type*)
  | junction (j : ℕ) (corners : List (K × K))
  | link (k : ℕ) (corners : List (K × K))

def Shape.corners : Shape K → List (K × K)
  | .junction _ c => c
  | .link _ c => c

/-- Largest and smallest of the first `M` entries (`.max()`, `.min()`; numpy raises for `M = 0`). -/
def maxOf (f : ℕ → K) : ℕ → K
  | 0 => f 0
  | m + 1 => max (maxOf f m) (f (m + 1))

def minOf (f : ℕ → K) : ℕ → K
  | 0 => f 0
  | m + 1 => min (minOf f m) (f (m + 1))

/-- Largest and smallest entry of a list, started from `a`. -/
def maxL (a : K) (l : List K) : K := l.foldl max a
def minL (a : K) (l : List K) : K := l.foldl min a

/-- The dictionary `jk` (visualization.py 65–68): later superlinks replace earlier ones with the same ends. -/
def lookup (p : Prof K) (key : ℕ × ℕ) : Option ℕ :=
  (List.range p.NK).foldl (fun o k => if (p.sj0 k, p.sj1 k) = key then some k else o) none

/-- `_plot_superjunction_profile` (visualization.py 49–59). -/
def sjShape (p : Prof K) (j : ℕ) (x w : K) : Shape K :=
  .junction j [(x, p.z j), (x, p.H j), (x + w, p.H j), (x + w, p.z j)]

/-- `_plot_superlink_profile` (visualization.py 28–47): the bed line and a polygon for each pair of neighbours. The corners of
all polygons together are the beds and the surfaces at the junctions. -/
def linkShape (p : Prof K) (k : ℕ) (x : K) : Shape K :=
  .link k ((p.pts k).flatMap fun q => [(q.x + x, q.z), (q.x + x, q.z + q.h)])

/-- State of the loop. -/
structure St (K : Type*) where
  x : K
  ymin : K
  ymax : K
  shapes : List (Shape K)

/-- The body of the loop (visualization.py 74–89). -/
def body (p : Prof K) (w : K) (s : St K) (key : ℕ × ℕ) : St K :=
  let s := { s with shapes := s.shapes ++ [sjShape p key.1 s.x w], x := s.x + w }
  match lookup p key with
  | none => s
  | some k =>
    let zmin := minL (p.first k).z ((p.rest k).map Pt.z)
    let hmax := maxL ((p.first k).z + (p.first k).h) ((p.rest k).map fun q => q.z + q.h)
    { x := s.x + p.dx k
      shapes := s.shapes ++ [linkShape p k s.x]
      ymin := min (min (min s.ymin (p.z key.1)) (p.z key.2)) zmin
      ymax := max (max (max s.ymax (p.H key.1)) (p.H key.2)) hmax }

/-- Axes limits as set: lower and upper for each axis. -/
structure Lims (K : Type*) where
  x0 : K
  x1 : K
  y0 : K
  y1 : K

/-- `plot_profile` (visualization.py 61–100). `none` is the `UnboundLocalError` (`j1`, line 90) of a path with fewer than two
superjunctions. -/
def plotProfile (p : Prof K) (js : List ℕ) (w : K) : Option (List (Shape K) × Lims K) :=
  let keys := js.zip js.tail
  match keys.getLast? with
  | none => none
  | some last =>
    let s := keys.foldl (body p w) ⟨0, maxOf p.H (p.M - 1), minOf p.H (p.M - 1), []⟩
    let shapes := s.shapes ++ [sjShape p last.2 s.x w]
    let x := s.x + w
    some (shapes, ⟨0 - 2 / 100 * x, x + 2 / 100 * x, s.ymin - 2 / 100 * (s.ymax - s.ymin),
      s.ymax + 2 / 100 * (s.ymax - s.ymin)⟩)

/-! ### Maps -/

/-- Positions of the junctions of a superlink as constructed: the first at `dx_uk`, the others at `dx_uk` plus the lengths so
far (superlink.py 499–501). -/
def positions (du : K) (lens : List K) : List K := lens.scanl (· + ·) du

/-- `_dx_k` (superlink.py 756–757). -/
def lengthOf (lens : List K) : K := lens.sum

/-- Position of a junction on the map, one coordinate (visualization.py 116–118, 170–177): `a` and `b` are the coordinates of
the superjunctions at the ends, `x` its `_x_Ik`, `dx` the `_dx_k`. -/
def mapAt (a b x dx : K) : K := x / dx * (b - a) + a

/-- Limits of the vertical axis of `plot_network_3d` (visualization.py 247–250): `N + 1` junctions with bed and surface `zI`,
`sI`, and `M + 1` superjunctions with bed and surface `zj`, `sj`. -/
def zLims (N M : ℕ) (sI sj : ℕ → K) : K × K :=
  (min (minOf sI N) (minOf sj M), max (maxOf sI N) (maxOf sj M))

end Pipedream.Visual
