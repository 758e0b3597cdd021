import Verif.WholeModel
import Verif.GeometryBaseModel

/-!
# Model of the resolution of section names

`configure_hydraulic_geometry` and `link_hydraulic_geometry` of `/repo/pipedream_solver/nsuperlink.py`: how the
shape and transect names of the link table select the formulas, and the loops which fill the arrays
`_A_ik`, `_Pe_ik`, `_R_ik`, `_B_ik`.
-/

namespace Pipedream.Config

open Pipedream.Geometry Pipedream.Interp

noncomputable section

/-- The module-level dictionary `geom_code` — geometry.py 5–16. Dictionaries are association lists. -/
def geomCode : List (String × ℕ) :=
  [("circular", 1), ("rect_closed", 2), ("rect_open", 3), ("triangular", 4), ("trapezoidal", 5),
   ("parabolic", 6), ("elliptical", 7), ("wide", 8), ("force_main", 9), ("floodplain", 10)]

/-- `dict.setdefault(k, v)`: the value found, and the dictionary afterwards. -/
def setdefault (d : List (String × ℕ)) (k : String) (v : ℕ) : ℕ × List (String × ℕ) :=
  match d.lookup k with
  | some c => (c, d)
  | none => (v, d ++ [(k, v)])

/-- `[d.setdefault(s, 0) for s in names]` — nsuperlink.py 321–322, 372–373, 381–382: the codes, and the
dictionary afterwards. -/
def readNames (d : List (String × ℕ)) : List String → List ℕ × List (String × ℕ)
  | [] => ([], d)
  | s :: ss =>
    let r := setdefault d s 0
    let rest := readNames r.2 ss
    (r.1 :: rest.1, rest.2)

/-- A dictionary of transects, in insertion order: name and sampled tables (levels, areas, widths, perimeters,
radii; nsuperlink.py 351–371, the sampling itself is in `TransectTable`). -/
structure Transect where
  name : String
  zs : List ℝ
  As : List ℝ
  Bs : List ℝ
  Pes : List ℝ
  Rs : List ℝ

/-- The columns of the link table which name the section: `_shape_ik` (already lower-cased, superlink.py 434) and
`_transect_ik`. -/
structure Rows where
  shapes : List String
  transects : List String

/-- What `configure_hydraulic_geometry` stores — nsuperlink.py 321–404; `tcodes = none` if no transects were
given: the arrays of codes and starts are then empty arrays of floats (329–336). -/
structure Codes where
  geom : List ℕ
  irregular : List Bool
  tcodes : Option (List ℕ)

/-- `transect_name_to_ind = {transect : index for index, transect in enumerate(transects)}` —
nsuperlink.py 338. Keys of a dictionary are distinct. -/
def nameToInd (ts : List Transect) : List (String × ℕ) :=
  (ts.map Transect.name).zipIdx

/-- `configure_hydraulic_geometry` — nsuperlink.py 299–411, with the dictionary `geom_code` of the process as an
argument and as a result (it is mutated through `_geom_numbers`, 309). `orifices` are the shapes `_shape_o`
(380–383). -/
def configure (d : List (String × ℕ)) (ts : List Transect) (rows : Rows) (orifices : List String) :
    Codes × List ℕ × List (String × ℕ) :=
  let g := readNames d rows.shapes
  let t := if ts = [] then none else some (readNames (nameToInd ts) rows.transects).1
  let o := readNames g.2 orifices
  (⟨g.1, rows.shapes.map (fun s => decide (s = "irregular")), t⟩, o.1, o.2)

/-- The branches of `numba_hydraulic_geometry` on the code — nsuperlink.py 1720–1772. -/
def branch : ℕ → Option Shape
  | 1 => some .circular
  | 2 => some .rectClosed
  | 3 => some .rectOpen
  | 4 => some .triangular
  | 5 => some .trapezoidal
  | 6 => some .parabolic
  | 7 => some .elliptical
  | 8 => some .wide
  | 9 => some .forceMain
  | 10 => some .floodplain
  | _ => none

/-- The arrays `_A_ik`, `_Pe_ik`, `_R_ik`, `_B_ik`. -/
@[ext] structure Arrays where
  A : ℕ → ℝ
  Pe : ℕ → ℝ
  R : ℕ → ℝ
  B : ℕ → ℝ

/-- `np.zeros` — superlink.py 638–641. -/
def Arrays.zeros : Arrays := ⟨fun _ => 0, fun _ => 0, fun _ => 0, fun _ => 0⟩

/-- One round of the loop of `numba_hydraulic_geometry` — nsuperlink.py 1707–1772. The perimeter of an ellipse is
the value found in the array. -/
def regularBody (eps : ℝ) (codes : List ℕ) (g : ℕ → GP) (Ik : ℕ → ℕ) (h : ℕ → ℝ) (i : ℕ) (a : Arrays) :
    Arrays :=
  match branch (codes.getD i 0) with
  | none => a
  | some s =>
    let A := area s (g i) (h (Ik i)) (h (Ik i + 1))
    let Pe := perimeter eps (a.Pe i) s (g i) (h (Ik i)) (h (Ik i + 1))
    ⟨upd a.A i A, upd a.Pe i Pe, upd a.R i (hydRadius A Pe), upd a.B i (topWidth s (g i) (h (Ik i)) (h (Ik i + 1)))⟩

/-- `handle_elliptical_perimeter` — nsuperlink.py 1688–1696, with `_ellipse_ix` (nsuperlink.py 376–377). -/
def ellipses (n : ℕ) (codes : List ℕ) (g : ℕ → GP) (Ik : ℕ → ℕ) (h : ℕ → ℝ) (a : Arrays) : Arrays :=
  { a with Pe := fun i => if i < n ∧ codes.getD i 0 = 7
      then ellipticalPe (h (Ik i)) (h (Ik i + 1)) (g i).g1 (g i).g2 else a.Pe i }

/-- `interpolate_geometry(h_i, _z_range, _v_range, 1)` on slices of the concatenated tables —
nsuperlink.py 1903–1914. `_transect_inds`, `_transect_lens` are in the order of the dictionary (371–375: `order`
is the identity). -/
def tableAt (ts : List Transect) (col : Transect → List ℝ) (code : ℕ) (y : ℝ) : ℝ :=
  let z := storageSlice (ts.map Transect.zs) (List.range ts.length) code
  let v := storageSlice (ts.map col) (List.range ts.length) code
  interpolate .linear z.length (fun i => z.getD i 0) (fun i => v.getD i 0) y

/-- One round of the loop of `numba_transect_geometry` — nsuperlink.py 1893–1915. -/
def irregularBody (ts : List Transect) (irr : List Bool) (tcodes : List ℕ) (Ik : ℕ → ℕ) (h : ℕ → ℝ) (i : ℕ)
    (a : Arrays) : Arrays :=
  if irr.getD i false then
    let y := (h (Ik i) + h (Ik i + 1)) / 2
    let c := tcodes.getD i 0
    ⟨upd a.A i (tableAt ts Transect.As c y), upd a.Pe i (tableAt ts Transect.Pes c y),
     upd a.R i (tableAt ts Transect.Rs c y), upd a.B i (tableAt ts Transect.Bs c y)⟩
  else a

/-- Errors of `link_hydraulic_geometry`. -/
inductive CErr
  | typeError
  deriving DecidableEq

/-- `link_hydraulic_geometry` — nsuperlink.py 482–533. `numba_transect_geometry` is compiled for integer codes
(1885–1888): given the empty arrays of floats it raises TypeError. -/
def linkGeometry (eps : ℝ) (n : ℕ) (ts : List Transect) (c : Codes) (g : ℕ → GP) (Ik : ℕ → ℕ) (h : ℕ → ℝ)
    (a : Arrays) : Except CErr Arrays :=
  let a1 := forRange n (regularBody eps c.geom g Ik h) (ellipses n c.geom g Ik h a)
  if c.irregular.any id then
    match c.tcodes with
    | none => .error .typeError
    | some tc => .ok (forRange n (irregularBody ts c.irregular tc Ik h) a1)
  else .ok a1

/-- Successive calls with the depths of successive passes. -/
def passes (eps : ℝ) (n : ℕ) (ts : List Transect) (c : Codes) (g : ℕ → GP) (Ik : ℕ → ℕ) :
    List (ℕ → ℝ) → Arrays → Except CErr Arrays
  | [], a => .ok a
  | h :: hs, a => match linkGeometry eps n ts c g Ik h a with
    | .ok a' => passes eps n ts c g Ik hs a'
    | .error e => .error e

/-- The dictionary `geom_code` of a process after the construction of models with the given shapes (links, then
orifices). -/
def geomCodeAfter (models : List (List String)) : List (String × ℕ) :=
  models.foldl (fun d names => (readNames d names).2) geomCode

end

end Pipedream.Config
