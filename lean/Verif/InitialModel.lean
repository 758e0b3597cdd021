import Verif.WholeModel

/-!
# Model of what the constructor leaves behind

The constructor of `SuperLink` ends with a hidden time step of length 1e-6 (superlink.py 770–773) with the
heads, depths and flows of the input tables, without inflows and with all control signals zero. It then
resets `iter_count` and `t`.
-/

namespace Pipedream.Step

open Pipedream.Sweep Pipedream.Link Pipedream.Superlink Pipedream.Control Pipedream.Network

noncomputable section

/-- Initial values in the input tables: depths of superjunctions (`superjunctions['h_0']`), depths of pipe
junctions (`junctions['h_0']`), flows of links (`links['Q_0']`), orifice areas (`orifices['A']`). -/
structure Given where
  h0 : ℕ → ℝ
  hJ : ℕ → ℝ
  Q0 : ℕ → ℝ
  Ao : ℕ → ℝ

/-- State before the hidden step — superlink.py 369–371 (heads, at least the minimum depth), 494 (depths, as
given), 448 (flows), 714–715 (end flows), 530, 572, 610 (no flow through controls). -/
def Model.start (m : Model) (gv : Given) : Hyd where
  H := fun j => max (gv.h0 j + m.z_inv j) (m.z_inv j + m.min_depth)
  h := gv.hJ
  Q := gv.Q0
  Qu := fun k => gv.Q0 (m.ix.i_1k k)
  Qd := fun k => gv.Q0 (m.ix.i_1k k + m.ix.nk k - 1)
  Qo := fun _ => 0
  Qw := fun _ => 0
  Qp := fun _ => 0

/-- Scratch arrays of a fresh object: all zero (superlink.py 531–633, 640–712). -/
def freshWork : Work where
  mats := ⟨fun _ _ => 0, fun _ _ => 0, fun _ _ => 0, fun _ _ => 0⟩
  f := ⟨fun _ => 0, fun _ => 0, fun _ => 0, fun _ => 0⟩
  b := ⟨fun _ => 0, fun _ => 0, fun _ => 0, fun _ => 0⟩
  lo := fun _ => ⟨0, 0, 0⟩
  lw := fun _ => ⟨0, 0, 0⟩
  lp := fun _ => ⟨0, 0, 0⟩

/-- Arguments of `self.step(dt=1e-6, first_time=True)` — superlink.py 770. -/
def hiddenInputs : Inputs where
  dt := 1 / 1000000
  H_bc := none
  Q_in := fun _ => 0
  Q_0Ik := fun _ => 0
  u_o := fun _ => 0
  u_w := fun _ => 0
  u_p := fun _ => 0

/-- The object before the hidden step. -/
def Model.blank (m : Model) (gv : Given) : Obj := ⟨m.start gv, m.start gv, freshWork, Hidden.fresh gv.Ao⟩

/-- `SuperLink(...)` returned the object `o'`: the hidden step (superlink.py 770–773) succeeded. -/
def Built (m : Model) (P : Plan) (gv : Given) (o' : Obj) : Prop := Calls1 m P true hiddenInputs (m.blank gv) o'

end

end Pipedream.Step
