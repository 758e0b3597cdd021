import Verif.GeometryModel
import Mathlib.MeasureTheory.Integral.IntervalIntegral.Basic

/-!
# Model of `geometry.py`

The cross sections of the pure-Python classes (`/repo/pipedream_solver/geometry.py`), which work on whole
arrays with masked assignments. `Elliptical.Pe_ik` is also used with numba (`handle_elliptical_perimeter`,
nsuperlink.py 1688–1696). `scipy.special.ellipe`/`ellipeinc` are the integrals they are documented as.
Real numbers; division by zero (height 0) is totalised as in `GeometryModel`.
-/

namespace Pipedream.Geometry

noncomputable section

/-- `scipy.special.ellipeinc(phi, m)`: incomplete elliptic integral of the second kind. -/
def ellipeinc (phi m : ℝ) : ℝ := ∫ t in (0 : ℝ)..phi, Real.sqrt (1 - m * Real.sin t ^ 2)

/-- `scipy.special.ellipe(m)`: complete elliptic integral of the second kind. -/
def ellipe (m : ℝ) : ℝ := ellipeinc (Real.pi / 2) m

/-- `Elliptical.Pe_ik`, one element — geometry.py 637–663. -/
def ellipticalPe (h1 h2 g1 g2 : ℝ) : ℝ :=
  let b := g1 / 2
  let a := g2 / 2
  let y := depth h1 h2 g1
  let theta := Real.arcsin ((y - b) / b)
  let m := 1 - a ^ 2 / b ^ 2
  let Pe_a := 2 * b * ellipe m
  let Pe_b := 2 * b * ellipeinc theta m
  Pe_a + Pe_b

/-! ### Whole arrays -/

/-- `y[c] = v[c]` (`v` an array) or `y[c] = v` (`v` a number). -/
def mask (c : ℕ → Prop) [DecidablePred c] (v y : ℕ → ℝ) : ℕ → ℝ := fun i => if c i then v i else y i

/-- Errors of the pure-Python sections. -/
inductive GeoErr
  | notImplemented
  deriving DecidableEq

open Classical in
/-- `y = (h_Ik + h_Ip1k) / 2; y[y < 0] = 0` — e.g. geometry.py 40–41. -/
def vWet (h1 h2 : ℕ → ℝ) : ℕ → ℝ :=
  let y := fun i => (h1 i + h2 i) / 2
  mask (fun i => y i < 0) (fun _ => 0) y

open Classical in
/-- … `y[y > y_max] = y_max[y > y_max]` — e.g. geometry.py 42. -/
def vDepth (h1 h2 ymax : ℕ → ℝ) : ℕ → ℝ :=
  let y := vWet h1 h2
  mask (fun i => y i > ymax i) ymax y

open Classical in
/-- `phi = y / r`, cut to `[0, 2]`, `theta = np.arccos(1 - phi)` — geometry.py 44–48, 70–74, 113–117. -/
def vTheta (y d : ℕ → ℝ) : ℕ → ℝ :=
  let r := fun i => d i / 2
  let phi := fun i => y i / r i
  let phi := mask (fun i => phi i < 0) (fun _ => 0) phi
  let phi := mask (fun i => phi i > 2) (fun _ => 2) phi
  fun i => Real.arccos (1 - phi i)

/-- Area of a class — geometry.py: `Circular` 26–49, `Rect_Closed` 129–150, `Rect_Open` 226–247, `Triangular`
316–337, `Trapezoidal` 411–435, `Parabolic` 516–537, `Elliptical` 609–634, `Wide` 715–736, `Force_Main`
801–819, `Floodplain` 884–885. -/
def vArea (s : Shape) (g1 g2 g3 : ℕ → ℝ) (h1 h2 : ℕ → ℝ) : Except GeoErr (ℕ → ℝ) :=
  match s with
  | .circular =>
    let theta := vTheta (vDepth h1 h2 g1) g1
    .ok fun i => (g1 i / 2) ^ 2 * (theta i - Real.cos (theta i) * Real.sin (theta i))
  | .rectClosed => .ok fun i => vDepth h1 h2 g1 i * g2 i
  | .rectOpen => .ok fun i => vDepth h1 h2 g1 i * g2 i
  | .triangular => .ok fun i => g2 i * vDepth h1 h2 g1 i ^ 2
  | .trapezoidal => .ok fun i => vDepth h1 h2 g1 i * (g2 i + g3 i * vDepth h1 h2 g1 i)
  | .parabolic => .ok fun i => 2 * g2 i * vDepth h1 h2 g1 i / 3
  | .elliptical => .ok fun i =>
    let b := g1 i / 2
    let a := g2 i / 2
    let theta := Real.arcsin ((vDepth h1 h2 g1 i - b) / b)
    a * b * (Real.pi / 2 + theta) + a * b * Real.cos theta * Real.sin theta
  | .wide => .ok fun i => vDepth h1 h2 g1 i * g2 i
  | .forceMain => .ok fun i => Real.pi * (g1 i / 2) ^ 2
  | .floodplain => .error .notImplemented

open Classical in
/-- Wetted perimeter of a class — geometry.py: `Circular` 52–75, `Rect_Closed` 153–174, `Rect_Open` 250–271,
`Triangular` 340–361, `Trapezoidal` 438–462, `Parabolic` 540–562, `Elliptical` 637–663, `Wide` 739–757,
`Force_Main` 822–839, `Floodplain` 888–889. -/
def vPerimeter (eps : ℝ) (s : Shape) (g1 g2 g3 : ℕ → ℝ) (h1 h2 : ℕ → ℝ) : Except GeoErr (ℕ → ℝ) :=
  match s with
  | .circular => .ok fun i => 2 * (g1 i / 2) * vTheta (vDepth h1 h2 g1) g1 i
  | .rectClosed => .ok fun i => g2 i + 2 * vDepth h1 h2 g1 i
  | .rectOpen => .ok fun i => g2 i + 2 * vDepth h1 h2 g1 i
  | .triangular => .ok fun i => 2 * vDepth h1 h2 g1 i * Real.sqrt (1 + g2 i ^ 2)
  | .trapezoidal => .ok fun i => g2 i + 2 * vDepth h1 h2 g1 i * Real.sqrt (1 + g3 i ^ 2)
  | .parabolic =>
    let y := fun i => (h1 i + h2 i) / 2
    let y := mask (fun i => y i ≤ 0) (fun _ => eps) y
    let y := mask (fun i => y i > g1 i) g1 y
    let x := fun i => 4 * y i / g2 i
    .ok fun i => (g2 i / 2) * (Real.sqrt (1 + x i ^ 2) + (1 / x i) * Real.log (x i + Real.sqrt (1 + x i ^ 2)))
  | .elliptical => .ok fun i =>
    let b := g1 i / 2
    let a := g2 i / 2
    let theta := Real.arcsin ((vDepth h1 h2 g1 i - b) / b)
    let m := 1 - a ^ 2 / b ^ 2
    2 * b * ellipe m + 2 * b * ellipeinc theta m
  | .wide => .ok g2
  | .forceMain => .ok fun i => Real.pi * g1 i
  | .floodplain => .error .notImplemented

open Classical in
/-- `R_ik` — geometry.py 78–92, with the same body in the other classes (177–191, 274–288, 364–378, 465–479,
565–579, 666–680, 760–774, 842–856); `Floodplain` 892–893 raises. -/
def vRadius (s : Shape) (A Pe : ℕ → ℝ) : Except GeoErr (ℕ → ℝ) :=
  match s with
  | .floodplain => .error .notImplemented
  | _ => .ok (mask (fun i => Pe i > 0) (fun i => A i / Pe i) fun _ => 0)

open Classical in
/-- Top width of a class — geometry.py: `Circular` 95–122 and `Rect_Closed` 194–219 (`pslot` is never passed,
so 0.001), `Rect_Open` 291–308, `Triangular` 381–404, `Trapezoidal` 482–509, `Parabolic` 582–602,
`Elliptical` 683–707, `Wide` 777–794, `Force_Main` 859–877, `Floodplain` 896–897. -/
def vWidth (s : Shape) (g1 g2 g3 : ℕ → ℝ) (h1 h2 : ℕ → ℝ) (pslot : ℝ := 0.001) : Except GeoErr (ℕ → ℝ) :=
  let y := vWet h1 h2
  let cond := fun i => y i < g1 i
  match s with
  | .circular =>
    let theta := vTheta y g1
    let B := mask (fun i => ¬ cond i) (fun i => pslot * g1 i) fun _ => 0
    .ok (mask cond (fun i => 2 * (g1 i / 2) * Real.sin (theta i)) B)
  | .rectClosed =>
    let B := mask (fun i => ¬ cond i) (fun i => pslot * g2 i) fun _ => 0
    .ok (mask cond g2 B)
  | .rectOpen => .ok g2
  | .triangular =>
    let B := mask (fun i => ¬ cond i) (fun i => 2 * g2 i * g1 i) fun _ => 0
    .ok (mask cond (fun i => 2 * g2 i * y i) B)
  | .trapezoidal =>
    let B := mask (fun i => ¬ cond i) (fun i => g2 i + 2 * g3 i * g1 i) fun _ => 0
    .ok (mask cond (fun i => g2 i + 2 * g3 i * y i) B)
  | .parabolic => .ok fun i => g2 i * Real.sqrt (y i / g1 i)
  | .elliptical => .ok fun i =>
    let b := g1 i / 2
    let a := g2 i / 2
    let theta := Real.arcsin ((vDepth h1 h2 g1 i - b) / b)
    2 * Real.cos theta * Real.sqrt (a ^ 2 * Real.cos theta ^ 2 + b ^ 2 * Real.sin theta ^ 2)
  | .wide => .ok g2
  | .forceMain => .ok fun i => g1 i * g2 i
  | .floodplain => .error .notImplemented

/-- The slots filled in by the constructor where the table has 0 — superlink.py 1669–1674 (`_geom_codes` 1, 2
and 9). -/
def defaultSlot (s : Shape) (p : GP) : GP :=
  match s with
  | .circular => if p.g2 = 0 then { p with g2 := 0.001 } else p
  | .rectClosed => if p.g3 = 0 then { p with g3 := 0.001 } else p
  | .forceMain => if p.g2 = 0 then { p with g2 := 0.001 } else p
  | _ => p

end

end Pipedream.Geometry
