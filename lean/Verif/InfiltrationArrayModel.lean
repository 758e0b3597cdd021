import Verif.InfiltrationModel
import Verif.Basic

/-!
# The Green–Ampt model on arrays of soil elements

`InfiltrationModel` describes one soil element.  The code works on arrays with one entry per element: boolean masks select
the elements of a case, the selected entries are copied into shorter arrays, worked on, and written back.  Here this
selecting and writing back is modelled literally.
-/

namespace Pipedream.Infiltration

open Pipedream.Link Pipedream.Root

/-- `np.flatnonzero(mask)` for a mask of `N` entries (trusted numpy call, given by its definition). -/
def flat (N : ℕ) (mask : ℕ → Bool) : List ℕ := (List.range N).filter mask

/-- `a[mask]` with `l = np.flatnonzero(mask)`; also `a[l]`. -/
def sel {K : Type*} (a : ℕ → K) (l : List ℕ) : ℕ → K := fun p => a (l.getD p 0)

/-- `a[mask] = v` with `l = np.flatnonzero(mask)`: entry number `p` of `v` goes to position `l[p]`. -/
def put {K : Type*} (a : ℕ → K) (l : List ℕ) (v : ℕ → K) : ℕ → K :=
  forRange l.length (fun p b => upd b (l.getD p 0) (v p)) a

/-- `cond.any()` (infiltration.py) and `numba_any(cond)` — nutils.py 144–159. -/
def anyTrue (n : ℕ) (c : ℕ → Bool) : Bool := (List.range n).any c

/-- The loop of `run_green_ampt_newton` — ninfiltration.py 233–263: `F_2[i] = …` for `i` in `range(n)`, from an array of
zeros; the first exception ends it. -/
def fillE (f : ℕ → Except GErr ℝ) : ℕ → Except GErr (ℕ → ℝ)
  | 0 => .ok fun _ => 0
  | n + 1 => do
    let a ← fillE f n
    let v ← f n
    return upd a n v

/-- The arrays of a `GreenAmpt` object — infiltration.py 39–68. -/
structure GAs where
  F : ℕ → ℝ
  f : ℕ → ℝ
  thdu : ℕ → ℝ
  thd : ℕ → ℝ
  T : ℕ → ℝ
  d : ℕ → ℝ
  Q : ℕ → ℝ
  sat : ℕ → Bool
  t : ℝ

/-- Element `j` of the arrays. -/
def GAs.cell (s : GAs) (j : ℕ) : GA :=
  { F := s.F j, f := s.f j, thdu := s.thdu j, thd := s.thd j, T := s.T j, d := s.d j, Q := s.Q j, t := s.t, sat := s.sat j }

/-- The state after construction — infiltration.py 39–68. -/
def initials (ps : ℕ → Soil) : GAs :=
  { F := fun _ => 0, f := fun _ => 0, thdu := fun j => (ps j).thmax, thd := fun j => (ps j).thmax, T := fun _ => 0,
    d := fun _ => 0, Q := fun _ => 0, sat := fun _ => false, t := 0 }

/-- `if cond.any(): a[cond] = v`, for arrays of `n` entries. -/
def whereSet {K : Type*} (n : ℕ) (cond : ℕ → Bool) (a v : ℕ → K) : ℕ → K :=
  if anyTrue n cond then put a (flat n cond) v else a

/-- `cond = (dF > ia * dt)` — ninfiltration.py 153–154. -/
noncomputable def tooMuch (dt : ℝ) (ia F F2 : ℕ → ℝ) : ℕ → Bool := fun q => decide (F2 q - F q > ia q * dt)

/-- `dF = F_2 - F` and `dF[cond] = ia[cond] * dt` — ninfiltration.py 153–156. -/
noncomputable def satInc (n : ℕ) (dt : ℝ) (ia F F2 : ℕ → ℝ) : ℕ → ℝ :=
  whereSet n (tooMuch dt ia F F2) (fun q => F2 q - F q) fun r => sel ia (flat n (tooMuch dt ia F F2)) r * dt

/-- `saturated_case` after the root finding — ninfiltration.py 153–170. -/
noncomputable def satEnd (N : ℕ) (ps : ℕ → Soil) (dt : ℝ) (ia : ℕ → ℝ) (mask : ℕ → Bool) (s : GAs) (F2 : ℕ → ℝ) : GAs :=
  let l := flat N mask
  let n := l.length
  let p := sel ps l
  let F := sel s.F l
  let dF := satInc n dt (sel ia l) F F2
  { s with
    T := put s.T l fun q => (p q).Tr
    F := put s.F l fun q => F q + dF q
    f := put s.f l fun q => dF q / dt
    thdu := put s.thdu l fun q => clampTh (p q) (sel s.thdu l q - dF q / (p q).Lu)
    sat := put s.sat l (whereSet n (tooMuch dt (sel ia l) F F2) (sel s.sat l) fun _ => false) }

/-- `saturated_case` — ninfiltration.py 122–170. -/
noncomputable def satA (N : ℕ) (ps : ℕ → Soil) (dt : ℝ) (ia : ℕ → ℝ) (mask : ℕ → Bool) (s : GAs) : Except GErr GAs := do
  let l := flat N mask
  let F2 ← fillE (fun q => runNewton (sel ps l q) (sel s.thd l q) (sel ia l q) (sel s.F l q) (sel s.F l q) dt) l.length
  return satEnd N ps dt ia mask s F2

/-- `unsaturated_case_1` — infiltration.py 114–154. -/
noncomputable def case1A (N : ℕ) (ps : ℕ → Soil) (dt : ℝ) (mask : ℕ → Bool) (s : GAs) : GAs :=
  let l := flat N mask
  let n := l.length
  let p := sel ps l
  let thdu := fun q => clampTh (p q) (sel s.thdu l q + (p q).kr * (p q).thmax * dt)
  let cond := fun q => decide (sel s.T l q ≤ 0)
  { s with
    F := put s.F l (whereSet n cond (fun q => sel s.F l q - (p q).kr * (p q).thmax * dt * (p q).Lu) fun _ => 0)
    f := put s.f l fun _ => 0
    thdu := put s.thdu l thdu
    thd := put s.thd l (whereSet n cond (sel s.thd l) (sel thdu (flat n cond))) }

/-- `unsaturated_case_2` — infiltration.py 156–189. -/
noncomputable def case2A (N : ℕ) (ps : ℕ → Soil) (dt : ℝ) (ia : ℕ → ℝ) (mask : ℕ → Bool) (s : GAs) : GAs :=
  let l := flat N mask
  let p := sel ps l
  { s with
    F := put s.F l fun q => sel s.F l q + sel ia l q * dt
    f := put s.f l (sel ia l)
    thdu := put s.thdu l fun q => clampTh (p q) (sel s.thdu l q - sel ia l q * dt / (p q).Lu) }

/-- The shorter arrays `F`, `f`, `theta_du` of `unsaturated_case_3` — ninfiltration.py 70–72. -/
structure Loc where
  F : ℕ → ℝ
  f : ℕ → ℝ
  thdu : ℕ → ℝ

/-- The shorter arrays that are only read — ninfiltration.py 62–69 — and `Fs` (76). -/
structure Ctx where
  n : ℕ
  p : ℕ → Soil
  ia : ℕ → ℝ
  thd : ℕ → ℝ
  Fs : ℕ → ℝ

/-- `cond_0`, `cond_1`, `cond_2` — ninfiltration.py 77–79. -/
noncomputable def Ctx.cond0 (c : Ctx) (F : ℕ → ℝ) : ℕ → Bool := fun q => decide (F q ≥ c.Fs q)

noncomputable def Ctx.cond1 (c : Ctx) (dt : ℝ) (F : ℕ → ℝ) : ℕ → Bool :=
  fun q => decide (F q + c.ia q * dt < c.Fs q) && !c.cond0 F q

noncomputable def Ctx.cond2 (c : Ctx) (dt : ℝ) (F : ℕ → ℝ) : ℕ → Bool := fun q => !c.cond0 F q && !c.cond1 dt F q

/-- First part — ninfiltration.py 81–93: `l` are the elements of the case, `c0` the positions of `cond_0` among them. -/
noncomputable def part0 (N : ℕ) (ps : ℕ → Soil) (dt : ℝ) (ia : ℕ → ℝ) (l : List ℕ) (cond : ℕ → Bool) (s : GAs) (x : Loc) :
    Except GErr (GAs × Loc) :=
  let n := l.length
  let c0 := flat n cond
  if anyTrue n cond then do
    let s := { s with sat := put s.sat l (put (sel s.sat l) c0 fun _ => true) }
    let sat_case := put (fun _ => false) (c0.map fun q => l.getD q 0) fun _ => true
    let s ← satA N ps dt ia sat_case s
    return (s, ⟨put x.F c0 (sel (sel s.F l) c0), put x.f c0 (sel (sel s.f l) c0), put x.thdu c0 (sel (sel s.thdu l) c0)⟩)
  else return (s, x)

/-- Second part — ninfiltration.py 95–101. -/
noncomputable def part1 (c : Ctx) (dt : ℝ) (cond : ℕ → Bool) (x : Loc) : Loc :=
  let c1 := flat c.n cond
  { F := whereSet c.n cond x.F fun r => sel x.F c1 r + sel c.ia c1 r * dt
    f := whereSet c.n cond x.f (sel c.ia c1)
    thdu := whereSet c.n cond x.thdu fun r =>
      clampTh (sel c.p c1 r) (sel x.thdu c1 r - sel c.ia c1 r * dt / (sel c.p c1 r).Lu) }

/-- Third part after the root finding — ninfiltration.py 111–116. -/
noncomputable def part2End (c : Ctx) (dt : ℝ) (cond : ℕ → Bool) (x : Loc) (F2 : ℕ → ℝ) : Loc :=
  let c2 := flat c.n cond
  { F := put x.F c2 F2
    f := put x.f c2 fun r => (F2 r - sel x.F c2 r) / dt
    thdu := put x.thdu c2 fun r => clampTh (sel c.p c2 r) (sel x.thdu c2 r - (F2 r - sel x.F c2 r) / (sel c.p c2 r).Lu) }

/-- Third part — ninfiltration.py 103–116. -/
noncomputable def part2 (c : Ctx) (dt : ℝ) (cond : ℕ → Bool) (x : Loc) : Except GErr Loc :=
  let c2 := flat c.n cond
  if anyTrue c.n cond then do
    let F2 ← fillE (fun r => runNewton (sel c.p c2 r) (sel c.thd c2 r) (sel c.ia c2 r) (sel x.F c2 r) (sel c.Fs c2 r)
      (dt - (sel c.Fs c2 r - sel x.F c2 r) / sel c.ia c2 r)) c2.length
    return part2End c dt cond x F2
  else return x

/-- `unsaturated_case_3` — ninfiltration.py 45–120. -/
noncomputable def case3A (N : ℕ) (ps : ℕ → Soil) (dt : ℝ) (ia : ℕ → ℝ) (mask : ℕ → Bool) (s : GAs) : Except GErr GAs := do
  let l := flat N mask
  let p := sel ps l
  let F := sel s.F l
  let c : Ctx := ⟨l.length, p, sel ia l, sel s.thd l,
    fun q => (p q).Ks * (p q).psi * sel s.thd l q / (sel ia l q - (p q).Ks)⟩
  let x : Loc := ⟨F, sel s.f l, sel s.thdu l⟩
  let s := { s with T := put s.T l fun q => (p q).Tr }
  let (s, x) ← part0 N ps dt ia l (c.cond0 F) s x
  let x := part1 c dt (c.cond1 dt F) x
  let x ← part2 c dt (c.cond2 dt F) x
  return { s with F := put s.F l x.F, f := put s.f l x.f, thdu := put s.thdu l x.thdu }

/-- `step` — ninfiltration.py 172–203, with `available_rainfall`, `decrement_recovery_time`, `compute_runoff` and
`compute_ponding_depth` (infiltration.py 86–112, 366–374). -/
noncomputable def stepA (N : ℕ) (ps : ℕ → Soil) (dt : ℝ) (i : ℕ → ℝ) (s : GAs) : Except GErr GAs := do
  let ia := fun j => i j + s.d j / dt
  let sat_case := s.sat
  let unsat1 := fun j => !s.sat j && decide (ia j = 0)
  let unsat2 := fun j => !s.sat j && decide (ia j ≤ (ps j).Ks)
  let unsat3 := fun j => !s.sat j && decide (ia j > (ps j).Ks)
  let s := { s with T := fun j => if j < N then s.T j - dt else s.T j }
  let s ← if anyTrue N sat_case then satA N ps dt ia sat_case s else pure s
  let s := if anyTrue N unsat1 then case1A N ps dt unsat1 s else s
  let s := if anyTrue N unsat2 then case2A N ps dt ia unsat2 s else s
  let s ← if anyTrue N unsat3 then case3A N ps dt ia unsat3 s else pure s
  return { s with
    Q := fun j => if j < N then max (i j - s.f j) 0 * (ps j).A_s else s.Q j
    d := fun j => if j < N then max (s.d j + (i j - s.f j)) 0 else s.d j
    t := s.t + dt }

/-- A whole run: a list of (step size, rainfall on every element). -/
noncomputable def runA (N : ℕ) (ps : ℕ → Soil) : List (ℝ × (ℕ → ℝ)) → GAs → Except GErr GAs
  | [], s => .ok s
  | (dt, i) :: rest, s => do
    let s' ← stepA N ps dt i s
    runA N ps rest s'

end Pipedream.Infiltration
