import Verif.TopologyModel
import Verif.InterpModel

/-!
# Model of `reposition_junctions`

`numba_reposition_junctions` (nsuperlink.py 3144–3210) called by `reposition_junctions` (nsuperlink.py
1651–1686): each superlink built with `mobile_elements=True` has one mobile junction which is moved to
where the downstream water level meets the invert, or back to the centre. Exact arithmetic; `np.argsort`
and `.sort()` by specification (`Topology.IsArgsort`), `np.searchsorted` as in `InterpModel`.
-/

namespace Pipedream.Reposition

open Pipedream.Topology Pipedream.Interp

variable {K : Type*} [Field K] [LinearOrder K]

/-- Outcomes other than a result: numba does not check array bounds, so reading outside the arrays yields
whatever lies in memory there (`foreignRead`); scalar division by zero raises. -/
inductive RErr
  | foreignRead
  | zeroDivision
  deriving DecidableEq

/-- The straight line on which the junctions of a superlink lie and its length parameters: slope `_m`,
elevation `_b0` at `x = 0`, centre `_xc`, `_zc`. -/
structure Line (K : Type*) where
  m : K
  b0 : K
  xc : K
  zc : K

/-- Arrays of one superlink: the views `_x_I`, `_z_inv_I`, `_h_I`, `_dx_i`, `_Q_i` (nsuperlink.py
3162–3165, 3208) and the position of the mobile junction `_elem_pos[k]`. -/
structure Loc (K : Type*) where
  x : ℕ → K
  z : ℕ → K
  h : ℕ → K
  dx : ℕ → K
  Q : ℕ → K
  pos : ℕ

variable (n : ℕ) (ln : Line K) (Hd : K)

/-- `move_junction` (nsuperlink.py 3170). -/
def moves (l : Loc K) : Prop := Hd > l.z n ∧ Hd < l.z 0

instance (l : Loc K) : Decidable (moves n Hd l) := inferInstanceAs (Decidable (_ ∧ _))

/-- `z_m`, `x_m` (nsuperlink.py 3171–3177). `x0` is the value read by `_x_I[_I_1]`, `none` if that address
is outside the array. -/
def target (x0 : Option K) (l : Loc K) : Except RErr (K × K) :=
  if moves n Hd l then
    match x0 with
    | none => .error .foreignRead
    | some x0 => if ln.m = 0 then .error .zeroDivision else .ok (Hd, (Hd - ln.b0) / ln.m + x0)
  else .ok (ln.zc, ln.xc)

/-- `h_m` (nsuperlink.py 3179–3184). `c - 1 = -1` wraps to the last junction; `c = njunctions` reads behind
the view. -/
def depthAt (xm : K) (l : Loc K) : Except RErr K :=
  let c := searchsorted (n + 1) l.x xm
  let cm1 := if c = 0 then n else c - 1
  if c = n + 1 then .error .foreignRead
  else if l.x c - l.x cm1 = 0 then .error .zeroDivision
  else
    let frac := (xm - l.x cm1) / (l.x c - l.x cm1)
    .ok ((1 - frac) * l.h cm1 + frac * l.h c)

/-- `r` (nsuperlink.py 3186–3187); the mobile junction is never the first (`pos ≥ 1`). -/
def ratio (l : Loc K) : Except RErr K :=
  if l.dx (l.pos - 1) + l.dx l.pos = 0 then .error .zeroDivision
  else .ok (l.dx (l.pos - 1) / (l.dx (l.pos - 1) + l.dx l.pos))

/-- The arrays with the mobile junction replaced, before sorting (nsuperlink.py 3189–3191). -/
def placed (zm xm hm : K) (l : Loc K) : Loc K :=
  { l with x := upd l.x l.pos xm, z := upd l.z l.pos zm, h := upd l.h l.pos hm }

/-- `np.argsort(Ix)[p]` for a permutation `Ix` of `0 … n` (nsuperlink.py 3199–3200): the place of `p`. -/
def placeOf (Ix : ℕ → ℕ) (p : ℕ) : ℕ := ((List.range (n + 1)).find? (fun i => Ix i = p)).getD 0

/-- `ix` before sorting (nsuperlink.py 3205–3206). -/
def flowIx (pos posNext : ℕ) (j : ℕ) : ℕ := if j = pos then posNext else j

/-- Flows after a shift (nsuperlink.py 3207–3210): `σ` is the order found by `ix.sort()`. -/
def shiftFlows (pos posNext : ℕ) (r : K) (σ : ℕ → ℕ) (Q : ℕ → K) : ℕ → K :=
  let Q1 := upd Q (pos - 1) ((1 - r) * Q (pos - 1) + r * Q pos)
  fun j => Q1 (flowIx pos posNext (σ j))

/-- Sorting and writing back (nsuperlink.py 3192–3210). -/
def sorted (r : K) (Ix σ : ℕ → ℕ) (l : Loc K) : Loc K :=
  let x := fun j => l.x (Ix j)
  let posNext := placeOf n Ix l.pos
  { x := x
    z := fun j => l.z (Ix j)
    h := fun j => l.h (Ix j)
    dx := diff x
    Q := if l.pos ≠ posNext then shiftFlows l.pos posNext r σ l.Q else l.Q
    pos := posNext }

/-- The loop body for one superlink (nsuperlink.py 3152–3210). -/
def reposLoc (x0 : Option K) (Ix σ : ℕ → ℕ) (l : Loc K) : Except RErr (Loc K) :=
  match target n ln Hd x0 l with
  | .error e => .error e
  | .ok (zm, xm) =>
    match depthAt n xm l with
    | .error e => .error e
    | .ok hm =>
      match ratio l with
      | .error e => .error e
      | .ok r => .ok (sorted n r Ix σ (placed zm xm hm l))

/-- `Ix` and `σ` are what the two sorts return: `np.argsort(_x_I)` (nsuperlink.py 3192) and the order of
`ix.sort()` (nsuperlink.py 3207), for the mobile junction at `xm`. -/
structure Sorts (xm : K) (Ix σ : ℕ → ℕ) (l : Loc K) : Prop where
  order : IsArgsort (n + 1) (upd l.x l.pos xm) Ix
  flows : IsArgsort (K := ℚ) n (fun j => (flowIx l.pos (placeOf n Ix l.pos) j : ℚ)) σ

/-! ### All superlinks -/

/-- The arrays of the model. -/
structure Arr (K : Type*) where
  x : ℕ → K
  z : ℕ → K
  h : ℕ → K
  dx : ℕ → K
  Q : ℕ → K
  pos : ℕ → ℕ

/-- Views of superlink `k` with first junction `I1` and first link `i1`. -/
def Arr.view (s : Arr K) (I1 i1 k : ℕ) : Loc K where
  x j := s.x (I1 + j)
  z j := s.z (I1 + j)
  h j := s.h (I1 + j)
  dx j := s.dx (i1 + j)
  Q j := s.Q (i1 + j)
  pos := s.pos k

/-- Write a superlink back (nsuperlink.py 3194–3197, 3201, 3210). -/
def Arr.put (s : Arr K) (I1 i1 n k : ℕ) (l : Loc K) : Arr K where
  x I := if I1 ≤ I ∧ I < I1 + (n + 1) then l.x (I - I1) else s.x I
  z I := if I1 ≤ I ∧ I < I1 + (n + 1) then l.z (I - I1) else s.z I
  h I := if I1 ≤ I ∧ I < I1 + (n + 1) then l.h (I - I1) else s.h I
  dx i := if i1 ≤ i ∧ i < i1 + n then l.dx (i - i1) else s.dx i
  Q i := if i1 ≤ i ∧ i < i1 + n then l.Q (i - i1) else s.Q i
  pos := upd s.pos k l.pos

/-- `_x_I[_I_1]` (nsuperlink.py 3173): the *global* index `_I_1` is applied to the view, so the address is
that of entry `2·_I_1` of the whole array of `NI` entries. -/
def readX0 (NI I1 : ℕ) (s : Arr K) : Option K := if I1 + I1 < NI then some (s.x (I1 + I1)) else none

/-- A call on `NK` superlinks with `n` links each (`mobile_elements=True` needs generated internals):
superlink `k` has junctions `k (n+1) …` and links `n k …` (`Topology.C48_generated_blocks`). -/
def reposLoop (NK : ℕ) (ln : ℕ → Line K) (Hd : ℕ → K) (rep : ℕ → Bool) (Ix σ : ℕ → ℕ → ℕ) :
    ℕ → Arr K → Except RErr (Arr K)
  | 0, s => .ok s
  | k + 1, s =>
    match reposLoop NK ln Hd rep Ix σ k s with
    | .error e => .error e
    | .ok s =>
      if rep k then
        match reposLoc n (ln k) (Hd k) (readX0 (NK * (n + 1)) (k * (n + 1)) s) (Ix k) (σ k)
            (s.view (k * (n + 1)) (n * k) k) with
        | .error e => .error e
        | .ok l => .ok (s.put (k * (n + 1)) (n * k) n k l)
      else .ok s

end Pipedream.Reposition
