import Verif.ConfigModel
import Verif.TransectTable

/-!
# Reading the dictionary of transects

The constructor argument `transects` maps names to dictionaries with the surveyed stations.  The compiled class samples
them in `configure_hydraulic_geometry` (nsuperlink.py 336–373), the pure-Python class hands each of them to
`geometry.Irregular` (superlink.py 1644–1645, geometry.py 900–901).
-/

namespace Pipedream.Config

open Pipedream.Geometry Pipedream.Sweep

/-- What a user can put under `'x'` or `'y'`: a Python list, an array of floats, or an array of integers (which is
what `np.array([0, 1, 2])` gives). -/
inductive Col
  | list (v : List ℝ)
  | floats (v : List ℝ)
  | ints (v : List ℝ)

/-- The coordinates in a column. -/
def Col.values : Col → List ℝ
  | .list v => v
  | .floats v => v
  | .ints v => v

/-- One of the inner dictionaries: the documented keys (nsuperlink.py 141–146, superlink.py 138–142,
docs/model-inputs.md 236–242) and the names of all further keys. -/
structure Entry where
  x : Option Col
  y : Option Col
  sample_points : Option ℤ
  horiz_points : Option ℤ
  vert_points : Option ℤ
  others : List String

/-- Exceptions, by class.  `bounds` is no exception: the compiled loops read beyond the end of `y` without
a check and continue with whatever is there. -/
inductive Fault
  | key (k : String)
  | attribute
  | value
  | type
  | bounds
  deriving DecidableEq

/-- The largest coordinate (`y.max()`, nsuperlink.py 351). -/
noncomputable def top : List ℝ → ℝ
  | [] => 0
  | a :: l => l.foldl max a

/-- The five sampled tables — nsuperlink.py 351–355, for `m` levels. -/
noncomputable def sample (name : String) (m : ℕ) (x y : List ℝ) : Transect :=
  let w := levels (top y) m
  let f := fun seg => transectSum seg x.length (fun i => x.getD i 0) (fun i => y.getD i 0)
  { name := name
    zs := (List.range m).map w
    As := (List.range m).map fun i => f segA (w i)
    Bs := (List.range m).map fun i => f segB (w i)
    Pes := (List.range m).map fun i => f segPe (w i)
    Rs := (List.range m).map fun i => safeDivide (f segA (w i)) (f segPe (w i)) }

/-- `transect.setdefault('sample_points', 100)` — nsuperlink.py 350; the entry is the user's own dictionary: the
constructor copies the five tables (superlink.py 291–295) but stores `transects` as it is (396). -/
def Entry.filled (e : Entry) : Entry := { e with sample_points := some (e.sample_points.getD 100) }

/-- One round of the loop over `transects.items()` — nsuperlink.py 347–363: the entry afterwards and what is raised or
sampled.  `Transect_A_ik` and its two companions are compiled for float arrays only (ngeometry.py 1114, 1139, 1168:
explicit signatures), so that anything else raises `TypeError` in the first call; without levels there is no call. -/
noncomputable def readEntry (name : String) (e : Entry) : Entry × Except Fault Transect :=
  match e.x with
  | none => (e, .error (.key "x"))
  | some x =>
    match e.y with
    | none => (e, .error (.key "y"))
    | some y =>
      let e' := e.filled
      let m := e.sample_points.getD 100
      (e',
        match y with
        | .list _ => .error .attribute
        | .ints v =>
          if v = [] then .error .value else if m < 0 then .error .value
          else if m = 0 then .ok (sample name 0 x.values v) else .error .type
        | .floats v =>
          if v = [] then .error .value else if m < 0 then .error .value
          else if m = 0 then .ok (sample name 0 x.values v)
          else
            match x with
            | .floats u => if 2 ≤ u.length ∧ v.length < u.length then .error .bounds else .ok (sample name m.toNat u v)
            | _ => .error .type)

/-- The loop — nsuperlink.py 347–363: the first exception ends it; entries already visited stay changed. -/
noncomputable def readAll : List (String × Entry) → List (String × Entry) × Except Fault (List Transect)
  | [] => ([], .ok [])
  | (name, e) :: d =>
    match readEntry name e with
    | (e', .error f) => ((name, e') :: d, .error f)
    | (e', .ok t) =>
      match readAll d with
      | (d', .error f) => ((name, e') :: d', .error f)
      | (d', .ok ts) => ((name, e') :: d', .ok (t :: ts))

/-- `geometry.Irregular(**transect)` — superlink.py 1645; geometry.py 901
`def __init__(self, x, y, horiz_points=100, vert_points=100)`: the numbers of points and the stations
(`np.asarray`, 902–903) that are used, or `TypeError` for a missing or an unexpected keyword. -/
def readEntryBase (e : Entry) : Except Fault (List ℝ × List ℝ × ℤ × ℤ) :=
  match e.x, e.y, e.sample_points, e.others with
  | some x, some y, none, [] => .ok (x.values, y.values, e.horiz_points.getD 100, e.vert_points.getD 100)
  | _, _, _, _ => .error .type

end Pipedream.Config
