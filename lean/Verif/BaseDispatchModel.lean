import Verif.ConfigModel
import Verif.InfiltrationArrayModel

/-!
# Which formulas the pure-Python class applies to which link

`SuperLink` of `/repo/pipedream_solver/superlink.py`, which `hydraulics.py` 6–9 exports if numba is not installed:
`configure_hydraulic_geometry` groups the links by section name, and the three geometry methods work through the groups.
-/

namespace Pipedream.Base

open Pipedream.Geometry Pipedream.Config Pipedream.Infiltration

noncomputable section

/-- Exceptions, by class. -/
inductive BErr
  | attribute
  | key
  | type
  | notImplemented
  | index
  | value
  deriving DecidableEq

/-- A column of strings: a pandas series, or the numpy array given by its attribute `values`. -/
inductive Column
  | series (v : List String)
  | array (v : List String)

/-- `column.str.lower()`: numpy arrays have no attribute `str`. (`String.toLower`: ASCII names.) -/
def Column.strLower : Column → Except BErr (List String)
  | .series v => .ok (v.map String.toLower)
  | .array _ => .error .attribute

/-- `links['shape'].str.lower().values` — superlink.py 434. -/
def shapeColumn (shape : List String) : Column := .array (shape.map String.toLower)

/-- `_geom_indices.loc[[geom]].values` — superlink.py 1630–1633: all links with that section name, in the order of
the table. -/
def groupOf (v : List String) (g : String) : List ℕ := flat v.length fun i => decide (v.getD i "" = g)

/-- What `configure_hydraulic_geometry` stores: the names and the groups of links. -/
structure Groups where
  names : List String
  geom : List (String × List ℕ)

/-- `configure_hydraulic_geometry` — superlink.py 1590–1692, the part for links (orifices are grouped likewise, 1655–1666).
`d` is the dictionary `geom_code` of the process, `order` the order in which the set `_unique_geom` (1627–1628) is iterated,
`tr` the column `transect`, `None` without transects (435–438).  1639 subscripts `None` if there are irregular
sections but no transects; 1650 looks every name up.  The construction of the `Irregular` objects (1644–1645) is in
`TransectEntryModel`.  Simplification: the rows of the table are numbered 0, 1, …. -/
def configureBase (d : List (String × ℕ)) (order : List String) (shape : Column) (tr : Option (List String)) :
    Except BErr Groups := do
  let v ← shape.strLower
  if "irregular" ∈ v ∧ tr = none then throw .type
  if order.any fun g => (d.lookup g).isNone then throw .key
  return ⟨v, order.map fun g => (g, groupOf v g)⟩

/-- `getattr(pipedream_solver.geometry, geom.title())` — superlink.py 1749, 1808, 1867: the classes of geometry.py are the names of
`geom_code` in title case (21, 124, 221, 311, 406, 511, 604, 710, 796, 879). -/
def classNamed (g : String) : Except BErr Shape :=
  match (geomCode.lookup g).bind branch with
  | some s => .ok s
  | none => .error .attribute

variable {V : Type}

/-- The loop over the groups — superlink.py 1744–1761, 1803–1824, 1862–1883: `comp s l` is what the methods of the class
return for the links `l`, as an array with one entry for each; it is written to the places `tgt` of these links (the links
themselves, 1756, or their superlinks, 1817).  `mask` selects all links, the first or the last ones of the superlinks
(1635–1636). -/
def regularLoop (comp : Shape → List ℕ → Except BErr (ℕ → V)) (mask : ℕ → Bool) (tgt : ℕ → ℕ) :
    List (String × List ℕ) → (ℕ → V) → Except BErr (ℕ → V)
  | [], a => .ok a
  | (g, l) :: rest, a => do
    let s ← classNamed g
    let v ← comp s (l.filter mask)
    regularLoop comp mask tgt rest (put a ((l.filter mask).map tgt) v)

/-- `_transect_indices` and the selections for the ends — superlink.py 1638–1643: the irregular links, in the order of the table. -/
def irregularRows (v : List String) (mask : ℕ → Bool) : List ℕ := (groupOf v "irregular").filter mask

/-- The loop over the transects — superlink.py 1763–1773, 1826–1835, 1885–1894: `.loc[[name]]` raises `KeyError` for a
name which no selected link has. -/
def transectLoop (tcomp : String → ℕ → V) (v : List String) (tr : List String) (mask : ℕ → Bool) (tgt : ℕ → ℕ) :
    List String → (ℕ → V) → Except BErr (ℕ → V)
  | [], a => .ok a
  | nm :: rest, a =>
    let l := (irregularRows v mask).filter fun i => decide (tr.getD i "" = nm)
    if l = [] then .error .key
    else transectLoop tcomp v tr mask tgt rest (put a (l.map tgt) (sel (tcomp nm) l))

/-- `link_hydraulic_geometry`, `upstream_hydraulic_geometry`, `downstream_hydraulic_geometry` — superlink.py 1719–1897;
`keys` are the keys of the dictionary of transects.  The second loop is entered if any selected link is irregular
(1624–1626). -/
def geometryBase (comp : Shape → List ℕ → Except BErr (ℕ → V)) (tcomp : String → ℕ → V) (q : Groups) (tr : List String)
    (keys : List String) (mask : ℕ → Bool) (tgt : ℕ → ℕ) (a : ℕ → V) : Except BErr (ℕ → V) := do
  let a ← regularLoop comp mask tgt q.geom a
  if irregularRows q.names mask = [] then return a
  else transectLoop tcomp q.names tr mask tgt keys a

/-- `NotImplementedError` is the only exception of the classes. -/
def raised {α : Type} : Except GeoErr α → Except BErr α
  | .ok a => .ok a
  | .error _ => .error .notImplemented

/-- The four values of a link — superlink.py 1754–1761: arrays of the selected links go in and come out. -/
def linkCalc (eps : ℝ) (g1 g2 g3 : ℕ → ℝ) (h1 h2 : ℕ → ℝ) (s : Shape) (l : List ℕ) :
    Except BErr (ℕ → ℝ × ℝ × ℝ × ℝ) := do
  let A ← raised (vArea s (sel g1 l) (sel g2 l) (sel g3 l) (sel h1 l) (sel h2 l))
  let Pe ← raised (vPerimeter eps s (sel g1 l) (sel g2 l) (sel g3 l) (sel h1 l) (sel h2 l))
  let R ← raised (vRadius s A Pe)
  let B ← raised (vWidth s (sel g1 l) (sel g2 l) (sel g3 l) (sel h1 l) (sel h2 l))
  return fun p => (A p, Pe p, R p, B p)

/-- The area of the orifices `l` of one shape in `orifice_hydraulic_geometry` — superlink.py 1922–1931: the depths `h_e` are those
of all `n` orifices, the dimensions those of `l` (`_g1_o[_o_g] * u[_o_g]`, …).  In the classes of geometry.py the
comparison `y > y_max` then fails to broadcast, or, for a single orifice, gives a mask that is too long for
`y_max[y > y_max]` (e.g. geometry.py 42); `Force_Main.A_ik` (801–819) does not use the depths and `Floodplain.A_ik` raises
(884–885). -/
def orificeComp (n : ℕ) (g1 g2 g3 h_e : ℕ → ℝ) (s : Shape) (l : List ℕ) : Except BErr (ℕ → ℝ) :=
  if l.length = n ∨ s = .forceMain ∨ s = .floodplain then raised (vArea s (sel g1 l) (sel g2 l) (sel g3 l) h_e h_e)
  else if l.length = 1 then .error .index
  else .error .value

end

end Pipedream.Base
