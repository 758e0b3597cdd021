import Verif.LinkModel
import Mathlib.Analysis.SpecialFunctions.Trigonometric.Inverse
import Mathlib.Analysis.SpecialFunctions.Sqrt

/-!
# Model of the cross-section formulas

`/repo/pipedream_solver/ngeometry.py` and the dispatch in `numba_hydraulic_geometry`,
`numba_boundary_geometry`, `numba_orifice_geometry` (nsuperlink.py 1697–1887).
Real numbers; `np.arccos`, `np.arcsin`, `np.log`, `np.sqrt` are the real functions. Division by zero
(a section of height 0) raises in the code; here it is totalised and every theorem asks for positive
dimensions, except for the orifice dispatch, where the exception is modelled (`orificeArea`).
-/

namespace Pipedream.Geometry

open Pipedream.Link (PyErr)

/-- `y = (h_Ik + h_Ip1k) / 2; if y < 0: y = 0` — e.g. ngeometry.py 37–39. -/
noncomputable def wet (h1 h2 : ℝ) : ℝ :=
  let y := (h1 + h2) / 2
  if y < 0 then 0 else y

/-- The same followed by `if y > y_max: y = y_max` — e.g. ngeometry.py 37–41. -/
noncomputable def depth (h1 h2 ymax : ℝ) : ℝ :=
  let y := wet h1 h2
  if y > ymax then ymax else y

/-- `phi` clamped to `[0, 2]` and `theta = arccos(1 - phi)` — ngeometry.py 42–49, 74–81, 124–131. -/
noncomputable def circTheta (y d : ℝ) : ℝ :=
  let r := d / 2
  let phi := y / r
  let phi := if phi < 0 then 0 else phi
  let phi := if phi > 2 then 2 else phi
  Real.arccos (1 - phi)

/-- `Circular_A_ik` — ngeometry.py 22–50. -/
noncomputable def circularA (h1 h2 g1 : ℝ) : ℝ :=
  let theta := circTheta (depth h1 h2 g1) g1
  let r := g1 / 2
  r ^ 2 * (theta - Real.cos theta * Real.sin theta)

/-- `Circular_Pe_ik` — ngeometry.py 52–80. -/
noncomputable def circularPe (h1 h2 g1 : ℝ) : ℝ :=
  let theta := circTheta (depth h1 h2 g1) g1
  let r := g1 / 2
  2 * r * theta

/-- `Circular_B_ik` — ngeometry.py 102–136 (the depth is not cut at `d`; `phi` is). -/
noncomputable def circularB (h1 h2 g1 g2 : ℝ) : ℝ :=
  let y := wet h1 h2
  let r := g1 / 2
  if y < g1 then 2 * r * Real.sin (circTheta y g1) else g2 * g1

/-- `Rect_Closed_A_ik` — ngeometry.py 139–163; `Rect_Open_A_ik` 245–269 and `Wide_A_ik` 741–767 have the
same body. -/
noncomputable def rectA (h1 h2 g1 g2 : ℝ) : ℝ := depth h1 h2 g1 * g2

/-- `Rect_Closed_Pe_ik` — ngeometry.py 165–189; `Rect_Open_Pe_ik` 271–295 has the same body. -/
noncomputable def rectPe (h1 h2 g1 g2 : ℝ) : ℝ := g2 + 2 * depth h1 h2 g1

/-- `Rect_Closed_B_ik` — ngeometry.py 215–242. -/
noncomputable def rectClosedB (h1 h2 g1 g2 g3 : ℝ) : ℝ := if wet h1 h2 < g1 then g2 else g3 * g2

/-- `Rect_Open_B_ik` — ngeometry.py 322–340; `Wide_B_ik` 808–828. -/
noncomputable def rectOpenB (_h1 _h2 _g1 g2 : ℝ) : ℝ := g2

/-- `Wide_Pe_ik` — ngeometry.py 769–788. -/
noncomputable def widePe (_h1 _h2 _g1 g2 : ℝ) : ℝ := g2

/-- `Triangular_A_ik` — ngeometry.py 343–369. -/
noncomputable def triangularA (h1 h2 g1 g2 : ℝ) : ℝ := g2 * depth h1 h2 g1 ^ 2

/-- `Triangular_Pe_ik` — ngeometry.py 371–395. -/
noncomputable def triangularPe (h1 h2 g1 g2 : ℝ) : ℝ := 2 * depth h1 h2 g1 * Real.sqrt (1 + g2 ^ 2)

/-- `Triangular_B_ik` — ngeometry.py 417–445. -/
noncomputable def triangularB (h1 h2 g1 g2 : ℝ) : ℝ :=
  let y := wet h1 h2
  if y < g1 then 2 * g2 * y else 2 * g2 * g1

/-- `Trapezoidal_A_ik` — ngeometry.py 448–475. -/
noncomputable def trapezoidalA (h1 h2 g1 g2 g3 : ℝ) : ℝ :=
  let y := depth h1 h2 g1
  y * (g2 + g3 * y)

/-- `Trapezoidal_Pe_ik` — ngeometry.py 477–504. -/
noncomputable def trapezoidalPe (h1 h2 g1 g2 g3 : ℝ) : ℝ :=
  g2 + 2 * depth h1 h2 g1 * Real.sqrt (1 + g3 ^ 2)

/-- `Trapezoidal_B_ik` — ngeometry.py 526–555. -/
noncomputable def trapezoidalB (h1 h2 g1 g2 g3 : ℝ) : ℝ :=
  let y := wet h1 h2
  if y < g1 then g2 + 2 * g3 * y else g2 + 2 * g3 * g1

/-- `Parabolic_A_ik` — ngeometry.py 557–581. -/
noncomputable def parabolicA (h1 h2 g1 g2 : ℝ) : ℝ := 2 * g2 * depth h1 h2 g1 / 3

/-- `Parabolic_Pe_ik` — ngeometry.py 587–613; `eps` is the module constant of line 19. -/
noncomputable def parabolicPe (eps h1 h2 g1 g2 : ℝ) : ℝ :=
  let y := (h1 + h2) / 2
  let y := if y ≤ 0 then eps else y
  let y := if y > g1 then g1 else y
  let x := 4 * y / g2
  (g2 / 2) * (Real.sqrt (1 + x ^ 2) + (1 / x) * Real.log (x + Real.sqrt (1 + x ^ 2)))

/-- `Parabolic_B_ik` — ngeometry.py 635–655 (the depth is not cut at the section height). -/
noncomputable def parabolicB (h1 h2 g1 g2 : ℝ) : ℝ := g2 * Real.sqrt (wet h1 h2 / g1)

/-- `Elliptical_A_ik` — ngeometry.py 657–687. -/
noncomputable def ellipticalA (h1 h2 g1 g2 : ℝ) : ℝ :=
  let b := g1 / 2
  let a := g2 / 2
  let y := depth h1 h2 g1
  let theta := Real.arcsin ((y - b) / b)
  let A_a := a * b * (Real.pi / 2 + theta)
  let A_b := a * b * Real.cos theta * Real.sin theta
  A_a + A_b

/-- `Elliptical_B_ik` — ngeometry.py 709–738. -/
noncomputable def ellipticalB (h1 h2 g1 g2 : ℝ) : ℝ :=
  let b := g1 / 2
  let a := g2 / 2
  let y := depth h1 h2 g1
  let theta := Real.arcsin ((y - b) / b)
  2 * Real.cos theta * Real.sqrt (a ^ 2 * Real.cos theta ^ 2 + b ^ 2 * Real.sin theta ^ 2)

/-- `Force_Main_A_ik` — ngeometry.py 830–850. -/
noncomputable def forceMainA (_h1 _h2 g1 _g2 : ℝ) : ℝ := Real.pi * (g1 / 2) ^ 2

/-- `Force_Main_Pe_ik` — ngeometry.py 852–871. -/
noncomputable def forceMainPe (_h1 _h2 g1 _g2 : ℝ) : ℝ := Real.pi * g1

/-- `Force_Main_B_ik` — ngeometry.py 893–913. -/
noncomputable def forceMainB (_h1 _h2 g1 g2 : ℝ) : ℝ := g2 * g1

/-- The three partial depths and two partial widths of a compound section — ngeometry.py 958–977. -/
structure Tiers where
  y_base : ℝ
  y_middle : ℝ
  y_top : ℝ
  b_middle : ℝ
  b_top : ℝ

/-- ngeometry.py 958–977 (`h_low = g2`, `h_mid = g2 + g3`). The last `elif (y >= h_mid)` always holds when
reached. -/
noncomputable def tiers (y g2 g3 g5 g6 : ℝ) : Tiers :=
  if y < g2 then ⟨y, 0, 0, 0, 0⟩
  else if y < g2 + g3 then ⟨g2, y - g2, 0, 2 * g5 * g2, 0⟩
  else ⟨g2, (g2 + g3) - g2, y - (g2 + g3), 2 * g5 * g2, 2 * g5 * g2 + 2 * g6 * ((g2 + g3) - g2)⟩

/-- `y > 0` used as a number. -/
noncomputable def ind (y : ℝ) : ℝ := if y > 0 then 1 else 0

/-- `Floodplain_A_ik` — ngeometry.py 915–982. -/
noncomputable def floodplainA (h1 h2 g1 g2 g3 g4 g5 g6 g7 : ℝ) : ℝ :=
  let y := depth h1 h2 g1
  let t := tiers y g2 g3 g5 g6
  let A_base := t.y_base * (g5 * t.y_base)
  let A_middle := t.y_middle * (t.b_middle + g6 * t.y_middle)
  let A_top := t.y_top * (t.b_top + g4 * t.y_top)
  A_base + A_middle + A_top + g7 * y * ind y

/-- `Floodplain_Pe_ik` — ngeometry.py 985–1046 (the widths it also computes are unused). -/
noncomputable def floodplainPe (h1 h2 g1 g2 g3 g4 g5 g6 g7 : ℝ) : ℝ :=
  let y := depth h1 h2 g1
  let t := tiers y g2 g3 g5 g6
  2 * t.y_base * Real.sqrt (1 + g5 ^ 2) + 2 * t.y_middle * Real.sqrt (1 + g6 ^ 2)
    + 2 * t.y_top * Real.sqrt (1 + g4 ^ 2) + g7 * ind y

/-- `Floodplain_B_ik` — ngeometry.py 1065–1112. -/
noncomputable def floodplainB (h1 h2 g1 g2 g3 g4 g5 g6 g7 : ℝ) : ℝ :=
  let y := depth h1 h2 g1
  if y < g2 then 2 * g5 * y + g7 * ind y
  else if y < g2 + g3 then 2 * g5 * g2 + 2 * g6 * (y - g2) + g7 * ind y
  else 2 * g5 * g2 + 2 * g6 * ((g2 + g3) - g2) + 2 * g4 * (y - (g2 + g3)) + g7 * ind y

/-- `Circular_R_ik` — ngeometry.py 82–100; the ten `…_R_ik` functions have the same body. -/
noncomputable def hydRadius (A Pe : ℝ) : ℝ := if Pe > 0 then A / Pe else 0

/-- The supported shapes, `geom_code` of ngeometry.py 6–17. -/
inductive Shape
  | circular | rectClosed | rectOpen | triangular | trapezoidal | parabolic | elliptical | wide
  | forceMain | floodplain
  deriving DecidableEq

/-- Section parameters `g1 … g7` of a link. -/
structure GP where
  g1 : ℝ
  g2 : ℝ
  g3 : ℝ
  g4 : ℝ
  g5 : ℝ
  g6 : ℝ
  g7 : ℝ

/-- Area by shape — the `_A_ik[i] = …` lines of `numba_hydraulic_geometry`, nsuperlink.py 1698–1773 (and of
`numba_boundary_geometry`, 1800–1853). -/
noncomputable def area (s : Shape) (p : GP) (h1 h2 : ℝ) : ℝ :=
  match s with
  | .circular => circularA h1 h2 p.g1
  | .rectClosed => rectA h1 h2 p.g1 p.g2
  | .rectOpen => rectA h1 h2 p.g1 p.g2
  | .triangular => triangularA h1 h2 p.g1 p.g2
  | .trapezoidal => trapezoidalA h1 h2 p.g1 p.g2 p.g3
  | .parabolic => parabolicA h1 h2 p.g1 p.g2
  | .elliptical => ellipticalA h1 h2 p.g1 p.g2
  | .wide => rectA h1 h2 p.g1 p.g2
  | .forceMain => forceMainA h1 h2 p.g1 p.g2
  | .floodplain => floodplainA h1 h2 p.g1 p.g2 p.g3 p.g4 p.g5 p.g6 p.g7

/-- Wetted perimeter by shape — same lines. For the ellipse the code leaves `_Pe` as it finds it
(`old`): for links it was computed before by `handle_elliptical_perimeter` (1688–1697, incomplete elliptic
integral, not modelled); for superlink ends nothing computes it. -/
noncomputable def perimeter (eps old : ℝ) (s : Shape) (p : GP) (h1 h2 : ℝ) : ℝ :=
  match s with
  | .circular => circularPe h1 h2 p.g1
  | .rectClosed => rectPe h1 h2 p.g1 p.g2
  | .rectOpen => rectPe h1 h2 p.g1 p.g2
  | .triangular => triangularPe h1 h2 p.g1 p.g2
  | .trapezoidal => trapezoidalPe h1 h2 p.g1 p.g2 p.g3
  | .parabolic => parabolicPe eps h1 h2 p.g1 p.g2
  | .elliptical => old
  | .wide => widePe h1 h2 p.g1 p.g2
  | .forceMain => forceMainPe h1 h2 p.g1 p.g2
  | .floodplain => floodplainPe h1 h2 p.g1 p.g2 p.g3 p.g4 p.g5 p.g6 p.g7

/-- Top width by shape — same lines. -/
noncomputable def topWidth (s : Shape) (p : GP) (h1 h2 : ℝ) : ℝ :=
  match s with
  | .circular => circularB h1 h2 p.g1 p.g2
  | .rectClosed => rectClosedB h1 h2 p.g1 p.g2 p.g3
  | .rectOpen => rectOpenB h1 h2 p.g1 p.g2
  | .triangular => triangularB h1 h2 p.g1 p.g2
  | .trapezoidal => trapezoidalB h1 h2 p.g1 p.g2 p.g3
  | .parabolic => parabolicB h1 h2 p.g1 p.g2
  | .elliptical => ellipticalB h1 h2 p.g1 p.g2
  | .wide => rectOpenB h1 h2 p.g1 p.g2
  | .forceMain => forceMainB h1 h2 p.g1 p.g2
  | .floodplain => floodplainB h1 h2 p.g1 p.g2 p.g3 p.g4 p.g5 p.g6 p.g7

/-- Flow area of an orifice with opening fraction `u` — one pass of `numba_orifice_geometry`,
nsuperlink.py 1853–1883. `Circular_A_ik` divides by `r = g1 * u / 2` and `Elliptical_A_ik` by
`b = g1 * u / 2`, which raises for a closed orifice. A floodplain orifice has no branch: the old area
stays. -/
noncomputable def orificeArea (old : ℝ) (s : Shape) (p : GP) (h_e u : ℝ) : Except PyErr ℝ :=
  let q : GP := { p with g1 := p.g1 * u }
  match s with
  | .circular => if p.g1 * u / 2 = 0 then .error .zeroDivision else .ok (area .circular q h_e h_e)
  | .elliptical => if p.g1 * u / 2 = 0 then .error .zeroDivision else .ok (area .elliptical q h_e h_e)
  | .floodplain => .ok old
  | s => .ok (area s q h_e h_e)

/-! ### Irregular sections -/

/-- One segment of `Transect_B_ik` — ngeometry.py 1114–1137. -/
noncomputable def segB (w x0 x1 y0 y1 : ℝ) : ℝ :=
  let dx := x1 - x0
  let dy := y1 - y0
  if y0 > w ∧ y1 > w then 0
  else if y0 ≤ w ∧ y1 ≤ w then dx
  else if y0 > w ∧ y1 ≤ w then (dx / dy) * (y1 - w)
  else (dx / dy) * (w - y0)

/-- One segment of `Transect_Pe_ik` — ngeometry.py 1139–1166. -/
noncomputable def segPe (w x0 x1 y0 y1 : ℝ) : ℝ :=
  let dx := x1 - x0
  let dy := y1 - y0
  if y0 > w ∧ y1 > w then 0
  else if y0 ≤ w ∧ y1 ≤ w then Real.sqrt (dx ^ 2 + dy ^ 2)
  else if y0 > w ∧ y1 ≤ w then
    let dxp := (dx / dy) * (y1 - w)
    let dyp := w - y1
    Real.sqrt (dxp ^ 2 + dyp ^ 2)
  else
    let dxp := (dx / dy) * (w - y0)
    let dyp := w - y0
    Real.sqrt (dxp ^ 2 + dyp ^ 2)

/-- One segment of `Transect_A_ik` — ngeometry.py 1168–1199. -/
noncomputable def segA (w x0 x1 y0 y1 : ℝ) : ℝ :=
  let dx := x1 - x0
  let dy := y1 - y0
  if y0 > w ∧ y1 > w then 0
  else if y0 ≤ w ∧ y1 ≤ w then dx * (w - max y0 y1) + |dx * dy / 2|
  else if y0 > w ∧ y1 ≤ w then
    let dxp := (dx / dy) * (y1 - w)
    let dyp := w - y1
    |dxp * dyp / 2|
  else
    let dxp := (dx / dy) * (w - y0)
    let dyp := w - y0
    |dxp * dyp / 2|

/-- The accumulation loop shared by the three transect functions — ngeometry.py 1114–1139, 1141–1169,
1171–1199; `n = len(x)`. -/
noncomputable def transectSum (seg : ℝ → ℝ → ℝ → ℝ → ℝ → ℝ) (n : ℕ) (x y : ℕ → ℝ) (w : ℝ) : ℝ :=
  forRange (n - 1) (fun i acc => acc + seg w (x i) (x (i + 1)) (y i) (y (i + 1))) 0

end Pipedream.Geometry
