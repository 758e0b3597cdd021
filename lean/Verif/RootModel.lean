import Verif.LinkModel

/-!
# Model of the root finders

`newton_raphson` and `bounded_newton_raphson` of `/repo/pipedream_solver/nutils.py` 40–142. The extra
arguments `args` are absorbed into `f` and `df`. `raise ValueError` is `PyErr.valueError`.
-/

namespace Pipedream.Root

open Pipedream.Link

/-- The loop of `newton_raphson` — nutils.py 63–75; `k` iterations left. -/
noncomputable def newtonLoop (f df : ℝ → ℝ) (atol rtol : ℝ) : ℕ → ℝ → Except PyErr ℝ
  | 0, _ => .error .valueError
  | k + 1, p0 =>
    if f p0 = 0 then .ok p0
    else if df p0 = 0 then .error .valueError
    else do
      let q ← pyDiv (f p0) (df p0)
      let p := p0 - q
      if |p - p0| ≤ atol + rtol * |p0| then .ok p else newtonLoop f df atol rtol k p

/-- `newton_raphson` — nutils.py 40–75. -/
noncomputable def newtonRaphson (f df : ℝ → ℝ) (x0 : ℝ) (maxIter : ℕ) (atol rtol : ℝ) :
    Except PyErr ℝ :=
  newtonLoop f df atol rtol maxIter x0

/-- Loop-carried variables of `bounded_newton_raphson`. -/
structure BState where
  x : ℝ
  lb : ℝ
  ub : ℝ
  dx : ℝ
  fx : ℝ
  dfx : ℝ

/-- `cond_0` — nutils.py 123: the Newton point would leave the bracket. -/
noncomputable def cond0 (s : BState) : Prop :=
  0 ≤ ((s.x - s.ub) * s.dfx - s.fx) * ((s.x - s.lb) * s.dfx - s.fx)

/-- `cond_1` — nutils.py 124: the Newton step would not halve the previous step. -/
noncomputable def cond1 (s : BState) : Prop := |s.dx * s.dfx| < |2 * s.fx|

open Classical in
/-- Bisection or Newton: the new `dx` and `x` — nutils.py 125–131. -/
noncomputable def advance (s : BState) : Except PyErr (ℝ × ℝ) :=
  if cond0 s ∨ cond1 s then
    let dx := 0.5 * (s.ub - s.lb)
    .ok (dx, s.lb + dx)
  else do
    let dx ← pyDiv s.fx s.dfx
    .ok (dx, s.x - dx)

/-- Steps 5 of the loop — nutils.py 136–141. -/
noncomputable def tighten (f df : ℝ → ℝ) (s : BState) (dx x : ℝ) : BState where
  x := x
  lb := if f x < 0 then x else s.lb
  ub := if f x < 0 then s.ub else x
  dx := dx
  fx := f x
  dfx := df x

/-- The loop — nutils.py 122–142; `k` iterations left. -/
noncomputable def boundedLoop (f df : ℝ → ℝ) (atol : ℝ) : ℕ → BState → Except PyErr ℝ
  | 0, _ => .error .valueError
  | k + 1, s => do
    let (dx, x) ← advance s
    if |dx| < atol then .ok x else boundedLoop f df atol k (tighten f df s dx x)

/-- Initial steps — nutils.py 107–120. -/
noncomputable def initState (f df : ℝ → ℝ) (x0 lb ub : ℝ) : BState :=
  let lb' := if f ub < f lb then ub else lb
  let ub' := if f ub < f lb then lb else ub
  let x := if x0 < lb' ∨ ub' < x0 then (lb' + ub') / 2 else x0
  { x := x, lb := lb', ub := ub', dx := |ub' - lb'|, fx := f x, dfx := df x }

/-- `bounded_newton_raphson` — nutils.py 77–142 (`rtol` is not used by the code). -/
noncomputable def boundedNewtonRaphson (f df : ℝ → ℝ) (x0 lb ub : ℝ) (maxIter : ℕ) (atol : ℝ) :
    Except PyErr ℝ :=
  boundedLoop f df atol maxIter (initState f df x0 lb ub)

/-- The loop of the pure-Python `bounded_newton_raphson` — utils.py 79–98; `k` iterations left. When they
are used up the function ends without a `return`, so that its value is `None`. -/
noncomputable def boundedLoopPy (f df : ℝ → ℝ) (eps : ℝ) : ℕ → BState → Except PyErr (Option ℝ)
  | 0, _ => .ok none
  | k + 1, s => do
    let (dx, x) ← advance s
    if |dx| < eps then .ok (some x) else boundedLoopPy f df eps k (tighten f df s dx x)

/-- The pure-Python `bounded_newton_raphson` — utils.py 38–98, with the defaults `max_iter=1000`,
`eps=1e-8` where nutils.py 79–80 has `max_iter=50`, `atol=1.48e-8`; initial steps (63–77) and the choice of
the step (80–88) are those of nutils.py. -/
noncomputable def boundedNewtonRaphsonPy (f df : ℝ → ℝ) (x0 lb ub : ℝ) (maxIter : ℕ) (eps : ℝ) :
    Except PyErr (Option ℝ) :=
  boundedLoopPy f df eps maxIter (initState f df x0 lb ub)

end Pipedream.Root
