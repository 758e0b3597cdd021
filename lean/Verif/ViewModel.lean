import Verif.HeapModel
import Mathlib.Algebra.Order.Floor.Ring
import Mathlib.Algebra.Field.Defs

/-!
# Which arrays a step overwrites and which it replaces

The getters of `SuperLink` return the arrays the model works on, and the setters store the array
they are given (`pipedream_solver/superlink.py:775-925`).  Whether a value read from the model is a
snapshot, and whether an array handed to the model is left alone, therefore depends on how each
method of a step treats its arrays: by writing into them, or by binding the attribute to a new one.
This file lists those effects on the store of `HeapModel`, method by method.  Attributes without a
getter are left out, and what is written is arbitrary (a function of the store).
-/

namespace Pipedream.Heap

variable {V : Type*}

/-- `Pe_ik` (`superlink.py:855-861`), not part of a saved state. -/
abbrev Attr.Pe_ik : Attr := .other 0
/-- `R_ik` (`superlink.py:863-869`). -/
abbrev Attr.R_ik : Attr := .other 1
/-- `B_ik` (`superlink.py:871-877`). -/
abbrev Attr.B_ik : Attr := .other 2
/-- `z_inv_j` (`superlink.py:895-901`). -/
abbrev Attr.z_inv_j : Attr := .other 3
/-- `z_inv_uk` (`superlink.py:903-909`). -/
abbrev Attr.z_inv_uk : Attr := .other 4
/-- `z_inv_dk` (`superlink.py:911-917`). -/
abbrev Attr.z_inv_dk : Attr := .other 5

/-- What a statement does to an attribute: write into its array, or bind it to a new array. -/
inductive Eff where
  | write (a : Attr)
  | bind (a : Attr)

/-- Effect on the store; `f` gives what is stored. -/
def runEff (f : Mem V → Eff → V) (m : Mem V) : Eff → Mem V
  | .write a => m.poke (m.attr a) (f m (.write a))
  | .bind a => (m.alloc (f m (.bind a))).setAttr a m.next

/-- Effects of a list of statements. -/
def runEffs (f : Mem V → Eff → V) (es : List Eff) (m : Mem V) : Mem V := es.foldl (runEff f) m

/-- The methods for the internal states (`superlink.py:4074-4081`); any other string selects
none. -/
inductive Method where
  | b | f | nnls | lsq | none
  deriving DecidableEq

/-- What a model consists of, as far as the effects of a step depend on it. -/
structure Conf where
  n_o : ℕ
  n_w : ℕ
  n_p : ℕ
  method : Method

/-- `link_hydraulic_geometry` (`nsuperlink.py:482-533`; base class `superlink.py:1722-1778`): the
kernels write into the four arrays, which are then assigned to the attributes they came from. -/
def linkGeometryEff : List Eff :=
  [.write .Pe_ik, .write .A_ik, .write .Pe_ik, .write .R_ik, .write .B_ik]

/-- `upstream_hydraulic_geometry` (`nsuperlink.py:535-585`). -/
def upstreamGeometryEff : List Eff := [.write .A_uk]

/-- `downstream_hydraulic_geometry` (`nsuperlink.py:587-636`). -/
def downstreamGeometryEff : List Eff := [.write .A_dk]

/-- `compute_storage_areas` (`nsuperlink.py:666-697`; base class `superlink.py:1934-1963`). -/
def storageAreaEff : List Eff := [.write .A_sj]

/-- `compute_storage_volumes` (`nsuperlink.py:1615-1649`; base class `superlink.py:1965-1996`). -/
def storageVolumeEff : List Eff := [.write .V_j]

/-- `_setup_step` after its `save_state` (`superlink.py:4013-4051`).  Velocities, coefficients and
equations are computed afterwards; they have no getters. -/
def setupEff : List Eff :=
  linkGeometryEff ++ upstreamGeometryEff ++ downstreamGeometryEff ++ storageAreaEff
    ++ storageVolumeEff

/-- `solve_sparse_matrix`, `solve_banded_matrix` (`nsuperlink.py:1297-1383`): the heads are the
result of `np.minimum`, a new array. -/
def headEff : List Eff := [.bind .H_j]

/-- `solve_superlink_flows` (`superlink.py:2965-2985`). -/
def endFlowEff : List Eff := [.bind .Q_uk, .bind .Q_dk]

/-- `solve_orifice_flows`, `solve_weir_flows`, `solve_pump_flows` (`nsuperlink.py:1534-1613`), each
called if the model has such elements (`superlink.py:4065-4070`). -/
def controlEff (c : Conf) : List Eff :=
  (if c.n_o ≠ 0 then [.bind .Q_o] else []) ++ (if c.n_w ≠ 0 then [.bind .Q_w] else [])
    ++ (if c.n_p ≠ 0 then [.bind .Q_p] else [])

/-- `solve_internals_backwards`, `solve_internals_forwards` (`nsuperlink.py:1385-1458`) write into
both arrays; `solve_internals_nnls`, `solve_internals_lsq` (`superlink.py:3415-3470`,
`nsuperlink.py:1460-1509`) write into `h_Ik` and bind `Q_ik` to the average of two new arrays. -/
def internalsEff : Method → List Eff
  | .b => [.write .Q_ik, .write .h_Ik]
  | .f => [.write .Q_ik, .write .h_Ik]
  | .nnls => [.write .h_Ik, .bind .Q_ik]
  | .lsq => [.write .h_Ik, .bind .Q_ik]
  | .none => []

/-- `_solve_step` (`superlink.py:4053-4090`); `self.t += dt` binds a new number. -/
def solveEff (c : Conf) : List Eff :=
  headEff ++ endFlowEff ++ controlEff c ++ internalsEff c.method ++ [.bind .t]

/-- One pass of the fixed-point iteration of `step` after the first (`superlink.py:4141-4149`):
the clock is put back, then setup and solution without saving. -/
def passEff (c : Conf) : List Eff := [.bind .t] ++ setupEff ++ solveEff c

/-- `step` (`superlink.py:4085-4150`) with `extra` further passes. -/
def stepMem (c : Conf) (extra : ℕ) (f : Mem V → Eff → V) (m : Mem V) : Mem V :=
  runEffs f (setupEff ++ solveEff c ++ (List.replicate extra (passEff c)).flatten)
    (saveState c.n_o c.n_w c.n_p m)

/-- What happens between a read and a later look: steps, and `load_state()` with the attributes to
leave alone and the contents the geometry kernels recompute (`superlink.py:3930-3953`). -/
inductive Ev (V : Type*) where
  | step (c : Conf) (extra : ℕ) (f : Mem V → Eff → V)
  | load (exclude : List Attr) (f : Mem V → Eff → V)

/-- The attributes written by the geometry calls of `load_state` (`superlink.py:3947-3952`). -/
def loadEff : List Eff :=
  linkGeometryEff ++ upstreamGeometryEff ++ downstreamGeometryEff ++ storageAreaEff

/-- Effect of one event. -/
def runEv (m : Mem V) : Ev V → Mem V
  | .step c extra f => stepMem c extra f m
  | .load ex f => runEffs f loadEff (loadState [] ex (fun _ => []) m)

/-- Effect of a run. -/
def runEvs (es : List (Ev V)) (m : Mem V) : Mem V := es.foldl runEv m

/-! ### Element types

The setters keep the element type of what they are given (`np.asarray`), while the constructor
converts everything to floats (e.g. `superlink.py:448`, `494`). -/

/-- An array as far as its element type matters: integers or floats. -/
structure Arr (K : Type*) where
  isInt : Bool
  data : ℕ → K

/-- Conversion of a float to an integer element: towards zero. -/
def truncate {K : Type*} [Field K] [LinearOrder K] [FloorRing K] (x : K) : K :=
  if 0 ≤ x then (⌊x⌋ : K) else (⌈x⌉ : K)

/-- What an item assignment `a[...] = values` leaves in an array of numpy: the element type stays,
the values are converted to it.  (All elements are assigned in the model; the base class assigns
them in groups.) -/
def Arr.store {K : Type*} [Field K] [LinearOrder K] [FloorRing K] (a : Arr K) (v : ℕ → K) : Arr K :=
  if a.isInt then ⟨true, fun i => truncate (v i)⟩ else ⟨false, v⟩

/-- The contents left by the statements of the base class, which computes in numpy: an item
assignment keeps the type of the array, an arithmetic expression gives a float array.  (The compiled
kernels of `nSuperLink` are declared for `float64[:]` and refuse other arrays.) -/
def typed {K : Type*} [Field K] [LinearOrder K] [FloorRing K]
    (g : Mem (Arr K) → Eff → ℕ → K) (m : Mem (Arr K)) : Eff → Arr K
  | .write a => (m.heap (m.attr a)).store (g m (.write a))
  | .bind a => ⟨false, g m (.bind a)⟩

end Pipedream.Heap
