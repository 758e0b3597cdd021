import Verif.InterpModel
import Verif.GeometryModel
import Verif.Basic
import Mathlib.Algebra.BigOperators.Group.Finset.Basic

/-!
# Model of the class `Irregular` of `geometry.py`

Irregular sections of the pure-Python library (`/repo/pipedream_solver/geometry.py` 900–1020): a survey is resampled at
equally spaced stations, tables over equally spaced levels are filled, and every call interpolates in a table.
Real numbers. The stations of the survey are taken in increasing order (`scipy.interpolate.interp1d` sorts them).
`np.linspace`, `np.trapz`, `np.gradient` and `interp1d` are library calls given by their definitions.
-/

namespace Pipedream.Irregular

open Pipedream.Link (PyErr)
open Pipedream.Interp (interpolate tabMin tabMax)

noncomputable section

/-- Arguments of the constructor — geometry.py 901: `p` stations, `horiz_points`, `vert_points`. -/
structure Survey where
  p : ℕ
  x : ℕ → ℝ
  y : ℕ → ℝ
  horiz : ℕ
  vert : ℕ

/-- `np.linspace(a, b, n)`; the spacing is `(b - a) / (n - 1)`. -/
def linspace (a b : ℝ) (n i : ℕ) : ℝ := a + i * ((b - a) / (n - 1 : ℕ))

/-- `np.trapz(f, x)` over `n` points. -/
def trapz (n : ℕ) (f x : ℕ → ℝ) : ℝ := ∑ i ∈ Finset.range (n - 1), (x (i + 1) - x i) * (f (i + 1) + f i) / 2

/-- `np.gradient(f)` along an axis of `n` points, unit spacing. -/
def gradient (n : ℕ) (f : ℕ → ℝ) (i : ℕ) : ℝ :=
  if i = 0 then f 1 - f 0 else if i = n - 1 then f (n - 1) - f (n - 2) else (f (i + 1) - f (i - 1)) / 2

/-- `scipy.interpolate.interp1d(xs, ys)(v)` with its default `bounds_error`. -/
def interp1d (n : ℕ) (xs ys : ℕ → ℝ) (v : ℝ) : Except PyErr ℝ :=
  if v < xs 0 ∨ xs (n - 1) < v then .error .valueError else .ok (interpolate .linear n xs ys v)

namespace Survey

variable (S : Survey)

/-- `self.ymin`, `self.ymax` — geometry.py 905–906. -/
def ymin : ℝ := tabMin S.y (S.p - 1)
def ymax : ℝ := tabMax S.y (S.p - 1)

/-- `self.xmin`, `self.xmax` — geometry.py 907–908. -/
def xmin : ℝ := tabMin S.x (S.p - 1)
def xmax : ℝ := tabMax S.x (S.p - 1)

/-- `self.xx`, `self.xstep` — geometry.py 910–911. -/
def xx (i : ℕ) : ℝ := linspace S.xmin S.xmax S.horiz i
def xstep : ℝ := (S.xmax - S.xmin) / (S.horiz - 1 : ℕ)

/-- `self.yy` — geometry.py 912 (the stations `xx` never leave the range of `x`). -/
def yy (i : ℕ) : ℝ := interpolate .linear S.p S.x S.y (S.xx i)

/-- `self.h` — geometry.py 913. -/
def h (i : ℕ) : ℝ := linspace S.ymin S.ymax S.vert i

/-- `hh = np.maximum(h - yy, 0)` for one level — geometry.py 964, 969. -/
def hh (w : ℝ) (i : ℕ) : ℝ := max (w - S.yy i) 0

/-- One level of `A_ik_lut` — geometry.py 957–971. -/
def areaAt (w : ℝ) : ℝ := trapz S.horiz (S.hh w) S.xx

/-- One level of `Pe_ik_lut` — geometry.py 973–992 (the table has at least two levels). -/
def perimeterAt (w : ℝ) : ℝ :=
  ∑ i ∈ Finset.range S.horiz,
    Real.sqrt ((if S.hh w i > 0 then S.xstep else 0) ^ 2 + gradient S.horiz (S.hh w) i ^ 2)

/-- One level of `R_ik_lut` — geometry.py 994–1001. -/
def radiusAt (w : ℝ) : ℝ := if S.perimeterAt w > 0 then S.areaAt w / S.perimeterAt w else 0

/-- One level of `B_ik_lut` for an array of levels — geometry.py 1003–1020. -/
def widthAt (w : ℝ) : ℝ := ∑ i ∈ Finset.range S.horiz, if w ≥ S.yy i then S.xstep else 0

/-- `y = (h_Ik + h_Ip1k) / 2; y[y < 0] = 0; y[y > ymax] = ymax` — geometry.py 926–929. -/
def level (h1 h2 : ℝ) : ℝ :=
  let y := (h1 + h2) / 2
  let y := if y < 0 then 0 else y
  if y > S.ymax then S.ymax else y

/-- `A_ik` — geometry.py 925–931. -/
def A (h1 h2 : ℝ) : Except PyErr ℝ := interp1d S.vert S.h (fun j => S.areaAt (S.h j)) (S.level h1 h2)

/-- `Pe_ik` — geometry.py 933–939. -/
def Pe (h1 h2 : ℝ) : Except PyErr ℝ := interp1d S.vert S.h (fun j => S.perimeterAt (S.h j)) (S.level h1 h2)

/-- `R_ik` — geometry.py 941–947. -/
def R (h1 h2 : ℝ) : Except PyErr ℝ := interp1d S.vert S.h (fun j => S.radiusAt (S.h j)) (S.level h1 h2)

/-- `B_ik` — geometry.py 949–955. -/
def B (h1 h2 : ℝ) : Except PyErr ℝ := interp1d S.vert S.h (fun j => S.widthAt (S.h j)) (S.level h1 h2)

end Survey

end

end Pipedream.Irregular
