import Verif.StorageModel

/-!
# Model of the pure-Python storage curves and of the resolution of storage names

`Functional` and `Tabular` of `/repo/pipedream_solver/storage.py`, used by the base class `SuperLink`;
`configure_storages`, `compute_storage_areas` and `compute_storage_volumes` of both classes.
-/

namespace Pipedream.Interp

noncomputable section

/-! ### storage.py -/

/-- `h[h < 0] = 0`, one element — storage.py 26 and 47. -/
def cutBelow (h : ℝ) : ℝ := if h < 0 then 0 else h

/-- `Functional.A_sj`, one element — storage.py 9–28. -/
def baseFunctionalArea (a b c h : ℝ) : ℝ := a * cutBelow h ^ b + c

/-- `Functional.V_sj`, one element — storage.py 30–49. -/
def baseFunctionalVolume (a b c h : ℝ) : ℝ := a * cutBelow h ^ (b + 1) / (b + 1) + c * cutBelow h

variable {K : Type*} [Field K] [LinearOrder K]

/-- `scipy.interpolate.interp1d(xp, fp)(x)`, trusted library call given by its definition for `n ≥ 2` strictly
increasing abscissas and `xp 0 ≤ x ≤ xp (n - 1)`: the chord of the interval found by `searchsorted`, whose
index is clipped to `1 … n - 1`. (Unsorted tables are sorted first; theorems take sorted ones.) -/
def interp1d (n : ℕ) (xp fp : ℕ → K) (x : K) : K :=
  let ix := max 1 (min (searchsorted n xp x) (n - 1))
  (fp ix - fp (ix - 1)) / (xp ix - xp (ix - 1)) * (x - xp (ix - 1)) + fp (ix - 1)

/-- `_h[_h < hmin] = hmin; _h[_h > hmax] = hmax`, one element — storage.py 84–85 and 102–103, with
`hmin = h.min()`, `hmax = h.max()` (66–67). -/
def clipToTable (n : ℕ) (hs : ℕ → K) (h : K) : K :=
  let h1 := if h < tabMin hs (n - 1) then tabMin hs (n - 1) else h
  if tabMax hs (n - 1) < h1 then tabMax hs (n - 1) else h1

/-- `Tabular.A_sj`, one element — storage.py 72–87. -/
def baseTabularArea (n : ℕ) (hs As : ℕ → K) (h : K) : K := interp1d n hs As (clipToTable n hs h)

/-- `Tabular.V_sj`, one element — storage.py 89–106; `Vs` is the table of line 65, `Amax = A.max()` (68). -/
def baseTabularVolume (n : ℕ) (hs As Vs : ℕ → K) (h : K) : K :=
  interp1d n hs Vs (clipToTable n hs h) + max (h - clipToTable n hs h) 0 * tabMax As (n - 1)

/-! ### Names -/

/-- A row of the superjunction table: columns `storage` (lower-cased, nsuperlink.py 431–432), `table` (`none` is
a missing value) and the coefficients — superlink.py 468–475. -/
structure SRow where
  kind : String
  table : Option String
  a : ℝ
  b : ℝ
  c : ℝ

/-- An entry of the dictionary `storages`. -/
structure STable where
  name : String
  hs : List ℝ
  As : List ℝ

/-- The column `V` — nsuperlink.py 453. -/
def STable.Vs (t : STable) : List ℝ :=
  (List.range t.hs.length).map (storageVs (fun i => t.hs.getD i 0) (fun i => t.As.getD i 0))

/-- Errors of the configuration and of the lookups: AssertionError, KeyError, TypeError (numba's TypingError is
one), and an index beyond an array, which numba does not check. -/
inductive SErr
  | assertion
  | key
  | type
  | outOfBounds
  deriving DecidableEq

def SRow.isFunctional (r : SRow) : Bool := r.kind == "functional"

def SRow.isTabular (r : SRow) : Bool := r.kind == "tabular"

/-- Tables named by tabular rows: `_storage_indices.index` — nsuperlink.py 437–438, superlink.py 1711–1712. -/
def usedNames (rows : List SRow) : List String := (rows.filter SRow.isTabular).filterMap SRow.table

/-- `storage_name_to_ind`: position in the sorted array `np.unique(names)`, if the name is there —
nsuperlink.py 439–441. The position is the number of distinct smaller names. -/
def rank (names : List String) (s : String) : Option ℕ :=
  if s ∈ names then some (names.dedup.filter (· < s)).length else none

/-- `np.argsort(order)` — nsuperlink.py 461. -/
def argsort (ks : List ℕ) : List ℕ :=
  (List.range ks.length).mergeSort (fun i j => ks.getD i 0 ≤ ks.getD j 0)

/-- What `configure_storages` of `nSuperLink` keeps: the permutation of the tables (the arrays `_storage_hs`,
`_storage_inds`, … follow from it, see `storageSlice`) and the pairs of `_storage_js` and `_storage_codes`; a code
that is not a number is `none`. -/
structure SCodes where
  order : List ℕ
  codes : List (ℕ × Option ℕ)

/-- `configure_storages` — nsuperlink.py 413–480. `none`: no tables were given, all arrays are empty arrays of
floats. `np.unique` cannot sort names and missing values together (TypeError); if all names are missing no entry
of the dictionary is found (KeyError). Row labels are taken to be positions. -/
def configureStorages (ts : List STable) (rows : List SRow) : Except SErr (Option SCodes) :=
  if ¬ rows.all (fun r => r.isFunctional || r.isTabular) then .error .assertion
  else if ts = [] then .ok none
  else
    let names := usedNames rows
    if (rows.any fun r => r.isTabular && r.table.isNone) && !names.isEmpty then .error .type
    else if ¬ ts.all (fun t => decide (t.name ∈ names)) then .error .key
    else .ok (some
      ⟨argsort (ts.map fun t => (rank names t.name).getD 0),
        rows.zipIdx.filterMap fun p => p.1.table.map fun s => (p.2, rank names s)⟩)

/-- The functional loop — nsuperlink.py 1951–1975; `f` is `functionalArea` or `functionalVolume`. -/
def functionalLoop (f : ℝ → ℝ → ℝ → ℝ → ℝ) (rows : List SRow) (h X : ℕ → ℝ) : ℕ → ℝ :=
  forRange rows.length (fun j X => match rows[j]? with
    | some r => if r.isFunctional then upd X j (f r.a r.b r.c (h j)) else X
    | none => X) X

/-- The loop of `numba_compute_tabular_storage_areas` / `_volumes` — nsuperlink.py 1977–2032; `look` is
the lookup in the three slices. -/
def tabularLoop (look : List ℝ → List ℝ → List ℝ → ℝ → ℝ) (ts : List STable) (order : List ℕ) (h : ℕ → ℝ) :
    List (ℕ × Option ℕ) → (ℕ → ℝ) → Except SErr (ℕ → ℝ)
  | [], X => .ok X
  | (j, st) :: rest, X => match st with
    | none => .error .type
    | some st =>
      if ts.length ≤ st then .error .outOfBounds
      else tabularLoop look ts order h rest (upd X j (look (storageSlice (ts.map STable.hs) order st)
        (storageSlice (ts.map STable.As) order st) (storageSlice (ts.map STable.Vs) order st) (h j)))

/-- `compute_storage_areas` / `compute_storage_volumes` — nsuperlink.py 666–697, 1615–1649. The tabular
function is compiled at its first call: with codes that are floats (no tables at all, or a missing code) it raises
TypingError. -/
def computeStorages (f : ℝ → ℝ → ℝ → ℝ → ℝ) (look : List ℝ → List ℝ → List ℝ → ℝ → ℝ) (ts : List STable)
    (rows : List SRow) (c : Option SCodes) (h X : ℕ → ℝ) : Except SErr (ℕ → ℝ) :=
  let X1 := functionalLoop f rows h X
  if rows.any SRow.isTabular then
    match c with
    | none => .error .type
    | some c =>
      if c.codes.any (fun p => p.2.isNone) then .error .type
      else tabularLoop look ts c.order h c.codes X1
  else .ok X1

/-- `tabularArea` and `tabularVolume` on slices. -/
def lookA (hs As _Vs : List ℝ) (h : ℝ) : ℝ :=
  tabularArea hs.length (fun i => hs.getD i 0) (fun i => As.getD i 0) h

def lookV (hs As Vs : List ℝ) (h : ℝ) : ℝ :=
  tabularVolume hs.length (fun i => hs.getD i 0) (fun i => As.getD i 0) (fun i => Vs.getD i 0) h

/-! ### The base class -/

/-- `configure_storages` of `SuperLink` keeps the tables which some tabular row names — superlink.py 1694–1721;
`compute_storage_areas` / `_volumes` — superlink.py 1934–1996: each of them is written to the tabular rows of its
name. -/
def baseTables (ts : List STable) (rows : List SRow) : List STable :=
  ts.filter fun t => t.name ∈ usedNames rows

/-- `_X_sj[_j_g] = generator.X_sj(_h_j[_j_g])` for one table. -/
def baseWrite (look : List ℝ → List ℝ → List ℝ → ℝ → ℝ) (rows : List SRow) (h : ℕ → ℝ) (X : ℕ → ℝ) (t : STable) : ℕ → ℝ :=
  fun j => match rows[j]? with
    | some r => if r.isTabular && r.table == some t.name then look t.hs t.As t.Vs (h j) else X j
    | none => X j

def baseStorages (f : ℝ → ℝ → ℝ → ℝ → ℝ) (look : List ℝ → List ℝ → List ℝ → ℝ → ℝ) (ts : List STable)
    (rows : List SRow) (h X : ℕ → ℝ) : Except SErr (ℕ → ℝ) :=
  if ¬ rows.all (fun r => r.isFunctional || r.isTabular) then .error .assertion
  else .ok ((baseTables ts rows).foldl (baseWrite look rows h) (functionalLoop f rows h X))

def baseLookA (hs As _Vs : List ℝ) (h : ℝ) : ℝ :=
  baseTabularArea hs.length (fun i => hs.getD i 0) (fun i => As.getD i 0) h

def baseLookV (hs As Vs : List ℝ) (h : ℝ) : ℝ :=
  baseTabularVolume hs.length (fun i => hs.getD i 0) (fun i => As.getD i 0) (fun i => Vs.getD i 0) h

end

end Pipedream.Interp
