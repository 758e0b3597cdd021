import Verif.WholeModel
import Verif.EndBcModel
import Verif.BaseEndModel

/-!
# Model of the options given as strings

The constructor stores `method`, `bc_method` and `end_method` without looking at them (superlink.py 400–402);
they are compared with known strings where they are used. `WholeModel` describes a step with known values; here
the comparison itself is modelled.
-/

namespace Pipedream.Step

open Pipedream.Sweep Pipedream.Link Pipedream.Superlink

noncomputable section

/-- `_end_method == 'o'` or not — nsuperlink.py 991, 998; superlink.py 2188, 2260, 2425, 3233. -/
def endMethodOf (s : String) : EndMethod := if s = "o" then .o else .b

/-- What becomes of the depths and flows inside the superlinks at the end of a step — superlink.py 4074–4081.
`swept back` is the state with the depths and flows of the marching solve (`back`: the first link backwards,
nsuperlink.py 1385–1458), `nnls` and `lsq` the states of the two other solves (`NnlsModel`, `LsqModel`; parameters
here), `new` the state before any of them. -/
def finish (method : String) (swept : Bool → Hyd) (nnls lsq new : Hyd) : Hyd :=
  if method = "b" then swept true
  else if method = "f" then swept false
  else if method = "nnls" then nnls
  else if method = "lsq" then lsq
  else new

/-- One call of a step of a model constructed with the strings `method` and `end_method` (superlink.py
4015–4083); `nnls` and `lsq` turn the state before the internal solve into the one after it. Otherwise as
`Calls1`. -/
def CallsOpt (method end_method : String) (nnls lsq : Work → Coef ℝ → Hyd → Hyd) (m : Model) (P : Plan) (first : Bool)
    (inp : Inputs) (o o' : Obj) : Prop :=
  ∃ Ao co x,
    let m' := { m with end_method := endMethodOf end_method }
    let geo := m'.geoOf P o.hid Ao o.cur
    let wk' := m'.work geo inp o.wk o.cur co
    let new := { m'.advance geo inp o.wk o.cur co x with h := o.cur.h, Q := o.cur.Q }
    (∀ a, a < m.n_o →
      Geometry.orificeArea (o.hid.Ao a) (P.oShape a) (P.oGP a) (m.orificeDepth o.cur a) (inp.u_o a) = .ok (Ao a)) ∧
    Pass m' geo inp o.wk (if first then o.cur else o.saved) o.cur co x ∧
    o' = ⟨if first then o.cur else o.saved,
      finish method (fun b => ({ m' with back := b } : Model).advance geo inp o.wk o.cur co x) (nnls wk' co new) (lsq wk' co new)
        new,
      wk', m'.nextHidden Ao o.cur⟩

/-- A sequence of such calls. -/
def HistoryOpt (method end_method : String) (nnls lsq : Work → Coef ℝ → Hyd → Hyd) (m : Model) (P : Plan) :
    List (Bool × Inputs) → Obj → Obj → Prop
  | [], o, o' => o' = o
  | q :: rest, o, o' => ∃ o1, CallsOpt method end_method nnls lsq m P q.1 q.2 o o1 ∧
      HistoryOpt method end_method nnls lsq m P rest o1 o'

end

end Pipedream.Step
