import Verif.InterpModel
import Mathlib.Analysis.SpecialFunctions.Pow.Real

/-!
# Model of superjunction storages

`compute_storage_areas`, `compute_storage_volumes`, `configure_storages` of
`/repo/pipedream_solver/nsuperlink.py`; the tabular lookups are in `InterpModel`.
-/

namespace Pipedream.Interp

/-- The depth handed to the storage curves — nsuperlink.py 689 and 1639. -/
def storageDepth {K : Type*} [Field K] [LinearOrder K] (H z min_depth : K) : K := max (H - z) min_depth

/-- One element of `numba_compute_functional_storage_areas` — nsuperlink.py 1951–1962. -/
noncomputable def functionalArea (a b c h : ℝ) : ℝ := if h < 0 then 0 else a * h ^ b + c

/-- One element of `numba_compute_functional_storage_volumes` — nsuperlink.py 1964–1975. The exponent
`b = -1` is a division by zero in the code; theorems take `b ≥ 0`. -/
noncomputable def functionalVolume (a b c h : ℝ) : ℝ :=
  if h < 0 then 0 else (a / (b + 1)) * h ^ (b + 1) + c * h

/-- `_storage_inds` before reordering: the running start `ix` of each table, in the order of the
`storages` dictionary — nsuperlink.py 442–455. -/
def startsFrom {α : Type*} (ix : ℕ) : List (List α) → List ℕ
  | [] => []
  | t :: ts => ix :: startsFrom (ix + t.length) ts

/-- The concatenated table: `np.concatenate([tables[i] for i in order])` — nsuperlink.py 457–459. -/
def concatTables {α : Type*} (tables : List (List α)) (order : List ℕ) : List α :=
  (order.map (fun i => tables.getD i [])).flatten

/-- The slice `hs[ind : ind + size]` which the lookups read for storage code `st`, where
`ind = _storage_inds[order][st]` and `size = _storage_lens[order][st]` — nsuperlink.py 460–461,
1982–1985. `order` is `np.argsort` of the alphabetical ranks of the dictionary keys, so storage code
`st` (the alphabetical rank) belongs to dictionary entry `order[st]`. -/
def storageSlice {α : Type*} (tables : List (List α)) (order : List ℕ) (st : ℕ) : List α :=
  let o := order.getD st 0
  let ind := (startsFrom 0 tables).getD o 0
  let size := (tables.map List.length).getD o 0
  ((concatTables tables order).drop ind).take size

end Pipedream.Interp
