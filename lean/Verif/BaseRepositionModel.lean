import Verif.RepositionModel

/-!
# Model of `reposition_junctions` of the pure-Python class

`SuperLink.reposition_junctions` (`/repo/pipedream_solver/superlink.py` 3644–3731): all superlinks at once, in matrices
with a row per superlink. One row at a time here; a row of `_fixed` has exactly one `False` and is given by its place
(`Loc.pos`), as `np.where(~_fixed)[1]` (3690) reads it. Exact arithmetic; sorts by specification as in
`Verif.RepositionModel`.
-/

namespace Pipedream.Reposition

open Pipedream.Topology Pipedream.Interp

variable {K : Type*} [Field K] [LinearOrder K]

/-- Whether the matrices can be formed (superlink.py 3671–3679, 3691): the arrays are reshaped to five junctions and four
links a row, whatever `internal_links`, and `xx[_fixed]` needs as many rows and columns as `_fixed` has, one row for each
of the `NK` superlinks and `il + 1` columns. Everything before that leaves the model as it is. -/
def rowsFit (NK il : ℕ) : Bool :=
  (NK * (il + 1)) % 5 = 0 && (NK * il) % 4 = 0 && ((NK * (il + 1)) / 5 = NK && 5 = il + 1)

variable (n : ℕ) (ln : Line K) (Hd : K)

/-- `x_m`, `z_m` (superlink.py 3682–3684). `np.where` evaluates the quotient everywhere; for a level bed it is not
chosen. -/
def baseTarget (l : Loc K) : K × K :=
  if moves n Hd l then (Hd, (Hd - ln.b0) / ln.m) else (ln.zc, ln.xc)

/-- `h_m` (superlink.py 3687–3689): `none` is the `IndexError` of a position beyond the last junction. Two junctions at
one place give nan; theorems exclude it. -/
def baseDepthAt (xm : K) (l : Loc K) : Option K :=
  let c := searchsorted (n + 1) l.x xm
  let cm1 := if c = 0 then n else c - 1
  if c = n + 1 then none
  else
    let frac := (xm - l.x cm1) / (l.x c - l.x cm1)
    some ((1 - frac) * l.h cm1 + frac * l.h c)

/-- Row entry taken from place `fixedIx pos j` by `xx[_fixed].reshape(-1, njunctions - 1)`, and the last one for the
mobile junction (superlink.py 3691–3696). -/
def fixedIx (pos j : ℕ) : ℕ := if j < pos then j else if j < n then j + 1 else pos

/-- The row after the fixed junctions are moved up and the mobile one is put last (superlink.py 3691–3698); the arrays
of the model are the ones written, because `reshape` returns views. -/
def compacted (zm xm hm : K) (l : Loc K) : Loc K :=
  { l with
    x := fun j => if j = n then xm else l.x (fixedIx n l.pos j)
    z := fun j => if j = n then zm else l.z (fixedIx n l.pos j)
    h := fun j => if j = n then hm else l.h (fixedIx n l.pos j)
    pos := n }

/-- Flows with those around the place left averaged, in place (superlink.py 3707, 3710–3711). -/
def averaged (pos posNext : ℕ) (Q : ℕ → K) : ℕ → K :=
  if pos ≠ posNext then upd Q (pos - 1) ((Q pos + Q (pos - 1)) / 2) else Q

/-- Sorted row of `Q_ix` (superlink.py 3680, 3708, 3712), `σ` the order of the sort. -/
def flowRow (pos posNext : ℕ) (σ : ℕ → ℕ) (j : ℕ) : ℕ := if pos ≠ posNext then flowIx pos posNext (σ j) else j

/-- The row after the call (superlink.py 3699–3731); `sel`: no mask is given, or it selects this superlink. The flows are
taken along `Q_ix` twice (3713–3714). In a row not selected the views keep what was written to them, and `_fixed` is
replaced nevertheless (3731). -/
def baseFinish (sel : Bool) (pos : ℕ) (Ix σ : ℕ → ℕ) (c : Loc K) : Loc K :=
  let posNext := placeOf n Ix n
  let Q := averaged pos posNext c.Q
  if sel then
    let x := fun j => c.x (Ix j)
    { x := x
      z := fun j => c.z (Ix j)
      h := fun j => c.h (Ix j)
      dx := diff x
      Q := fun j => Q (flowRow pos posNext σ (flowRow pos posNext σ j))
      pos := posNext }
  else { c with Q := Q, pos := posNext }

/-- One row of the call. -/
def baseRepos (sel : Bool) (Ix σ : ℕ → ℕ) (l : Loc K) : Option (Loc K) :=
  let t := baseTarget n ln Hd l
  match baseDepthAt n t.2 l with
  | none => none
  | some hm => some (baseFinish n sel l.pos Ix σ (compacted n t.1 t.2 hm l))

/-- What the two sorts return: `np.argsort(xx)` (superlink.py 3700) on the compacted row, and the order of `Q_ix.sort()`
(3712). -/
structure BaseSorts (xm : K) (Ix σ : ℕ → ℕ) (l : Loc K) : Prop where
  order : IsArgsort (n + 1) (fun j => if j = n then xm else l.x (fixedIx n l.pos j)) Ix
  flows : IsArgsort (K := ℚ) n (fun j => (flowIx l.pos (placeOf n Ix n) j : ℚ)) σ

end Pipedream.Reposition
