import Verif.PartModel

/-!
# Superlinks entered from the other end (specification for C111)

Which end of a superlink is called upstream is a convention of the tables. `Turned` says that a model is
another one in which some superlinks are entered from the other end: the two end superjunctions are
exchanged, links and junctions are listed in the opposite order, and slopes change sign.
-/

namespace Pipedream.Step

open Pipedream.Sweep Pipedream.Link Pipedream.Superlink Pipedream.Control Pipedream.Network
open Pipedream.Geometry Pipedream.Interp

/-- Place of link `j` of a superlink with `n` links, if the superlink is turned (`b`) or not. -/
def linkAt (b : Bool) (n j : ℕ) : ℕ := if b then n - 1 - j else j

/-- Place of junction `j` of a superlink with `n` links. -/
def nodeAt (b : Bool) (n j : ℕ) : ℕ := if b then n - j else j

/-- A signed quantity of the turned superlink. -/
def signed1 (b : Bool) (v : ℝ) : ℝ := if b then -v else v

/-- The first of two end quantities, seen from the turned superlink. -/
def endAt {α : Type} (b : Bool) (u d : α) : α := if b then d else u

/-- `m'` is `m` with the superlinks `k` for which `F k` entered from the other end. -/
structure Turned (F : ℕ → Bool) (m : Model) (P : Plan) (m' : Model) (P' : Plan) : Prop where
  g : m'.g = m.g
  N : m'.N = m.N
  M : m'.M = m.M
  ix : m'.ix = m.ix
  md : m'.min_depth = m.min_depth
  em : m'.end_method = m.end_method
  back : m'.back = m.back
  eps : P'.eps = P.eps
  ell : P'.ell = P.ell
  ell_symm : ∀ p a b, P.ell p a b = P.ell p b a
  damp : P'.damp = P.damp
  bc : m'.bc = m.bc
  z_inv : m'.z_inv = m.z_inv
  max_depth : m'.max_depth = m.max_depth
  storage : P'.storage = P.storage
  Ju : ∀ k, k < m.ix.NK → m'.Ju k = endAt (F k) (m.Ju k) (m.Jd k)
  Jd : ∀ k, k < m.ix.NK → m'.Jd k = endAt (F k) (m.Jd k) (m.Ju k)
  max_depth_k : ∀ k, k < m.ix.NK → m'.max_depth_k k = m.max_depth_k k
  dx_uk : ∀ k, k < m.ix.NK → m'.dx_uk k = endAt (F k) (m.dx_uk k) (m.dx_dk k)
  dx_dk : ∀ k, k < m.ix.NK → m'.dx_dk k = endAt (F k) (m.dx_dk k) (m.dx_uk k)
  z_uk : ∀ k, k < m.ix.NK → m'.z_uk k = endAt (F k) (m.z_uk k) (m.z_dk k)
  z_dk : ∀ k, k < m.ix.NK → m'.z_dk k = endAt (F k) (m.z_dk k) (m.z_uk k)
  C_uk : ∀ k, k < m.ix.NK → m'.C_uk k = endAt (F k) (m.C_uk k) (m.C_dk k)
  C_dk : ∀ k, k < m.ix.NK → m'.C_dk k = endAt (F k) (m.C_dk k) (m.C_uk k)
  dx : ∀ k, k < m.ix.NK → ∀ j, j < m.ix.nk k →
    m'.dx (m.ix.i_1k k + j) = m.dx (m.ix.i_1k k + linkAt (F k) (m.ix.nk k) j)
  n : ∀ k, k < m.ix.NK → ∀ j, j < m.ix.nk k →
    m'.n (m.ix.i_1k k + j) = m.n (m.ix.i_1k k + linkAt (F k) (m.ix.nk k) j)
  A_c : ∀ k, k < m.ix.NK → ∀ j, j < m.ix.nk k →
    m'.A_c (m.ix.i_1k k + j) = m.A_c (m.ix.i_1k k + linkAt (F k) (m.ix.nk k) j)
  C : ∀ k, k < m.ix.NK → ∀ j, j < m.ix.nk k →
    m'.C (m.ix.i_1k k + j) = m.C (m.ix.i_1k k + linkAt (F k) (m.ix.nk k) j)
  ctrl : ∀ k, k < m.ix.NK → ∀ j, j < m.ix.nk k →
    m'.ctrl (m.ix.i_1k k + j) = m.ctrl (m.ix.i_1k k + linkAt (F k) (m.ix.nk k) j)
  method : ∀ k, k < m.ix.NK → ∀ j, j < m.ix.nk k →
    m'.method (m.ix.i_1k k + j) = m.method (m.ix.i_1k k + linkAt (F k) (m.ix.nk k) j)
  S_o : ∀ k, k < m.ix.NK → ∀ j, j < m.ix.nk k →
    m'.S_o (m.ix.i_1k k + j) = signed1 (F k) (m.S_o (m.ix.i_1k k + linkAt (F k) (m.ix.nk k) j))
  sec : ∀ k, k < m.ix.NK → ∀ j, j < m.ix.nk k →
    P'.sec (m.ix.i_1k k + j) = P.sec (m.ix.i_1k k + linkAt (F k) (m.ix.nk k) j)
  A_S : ∀ k, k < m.ix.NK → ∀ j, j ≤ m.ix.nk k →
    m'.A_S (m.ix.I_1k k + j) = m.A_S (m.ix.I_1k k + nodeAt (F k) (m.ix.nk k) j)
  n_o : m'.n_o = m.n_o
  n_w : m'.n_w = m.n_w
  n_p : m'.n_p = m.n_p
  Juo : m'.Juo = m.Juo
  Jdo : m'.Jdo = m.Jdo
  orifice : m'.orifice = m.orifice
  Co : m'.Co = m.Co
  oShape : P'.oShape = P.oShape
  oGP : P'.oGP = P.oGP
  Juw : m'.Juw = m.Juw
  Jdw : m'.Jdw = m.Jdw
  weir : m'.weir = m.weir
  Jup : m'.Jup = m.Jup
  Jdp : m'.Jdp = m.Jdp
  pump : m'.pump = m.pump

/-- The same water seen through both models: heads and control flows are equal, the depths and flows of a
turned superlink are listed in the opposite order, and its flows change sign. -/
structure SameWater (F : ℕ → Bool) (m : Model) (s s' : Hyd) : Prop where
  H : ∀ j, j < m.M → s'.H j = s.H j
  h : ∀ k, k < m.ix.NK → ∀ j, j ≤ m.ix.nk k →
    s'.h (m.ix.I_1k k + j) = s.h (m.ix.I_1k k + nodeAt (F k) (m.ix.nk k) j)
  Q : ∀ k, k < m.ix.NK → ∀ j, j < m.ix.nk k →
    s'.Q (m.ix.i_1k k + j) = signed1 (F k) (s.Q (m.ix.i_1k k + linkAt (F k) (m.ix.nk k) j))
  Qu : ∀ k, k < m.ix.NK → s'.Qu k = signed1 (F k) (endAt (F k) (s.Qu k) (s.Qd k))
  Qd : ∀ k, k < m.ix.NK → s'.Qd k = signed1 (F k) (endAt (F k) (s.Qd k) (s.Qu k))
  Qo : ∀ k, k < m.n_o → s'.Qo k = s.Qo k
  Qw : ∀ k, k < m.n_w → s'.Qw k = s.Qw k
  Qp : ∀ k, k < m.n_p → s'.Qp k = s.Qp k

/-- The same for whole objects. -/
structure SameThing (F : ℕ → Bool) (m : Model) (o o' : Obj) : Prop where
  cur : SameWater F m o.cur o'.cur
  saved : SameWater F m o.saved o'.saved
  thu : ∀ k, k < m.ix.NK → o'.hid.thu k = endAt (F k) (o.hid.thu k) (o.hid.thd k)
  thd : ∀ k, k < m.ix.NK → o'.hid.thd k = endAt (F k) (o.hid.thd k) (o.hid.thu k)
  Ao : ∀ k, k < m.n_o → o'.hid.Ao k = o.hid.Ao k

/-- The same inputs: lateral inflows of a turned superlink are listed in the opposite order. -/
structure SameInputs (F : ℕ → Bool) (m : Model) (inp inp' : Inputs) : Prop where
  dt : inp'.dt = inp.dt
  H_bc : inp'.H_bc = inp.H_bc
  Q_in : ∀ j, j < m.M → inp'.Q_in j = inp.Q_in j
  Q_0Ik : ∀ k, k < m.ix.NK → ∀ j, j ≤ m.ix.nk k →
    inp'.Q_0Ik (m.ix.I_1k k + j) = inp.Q_0Ik (m.ix.I_1k k + nodeAt (F k) (m.ix.nk k) j)
  u_o : ∀ k, k < m.n_o → inp'.u_o k = inp.u_o k
  u_w : ∀ k, k < m.n_w → inp'.u_w k = inp.u_w k
  u_p : ∀ k, k < m.n_p → inp'.u_p k = inp.u_p k

/-- No interior depth of a turned superlink lies on its bounds. -/
def WithinBounds (F : ℕ → Bool) (m : Model) (s : Hyd) : Prop :=
  ∀ k, k < m.ix.NK → F k = true → ∀ j, 1 ≤ j → j < m.ix.nk k →
    m.min_depth < s.h (m.ix.I_1k k + j) ∧ s.h (m.ix.I_1k k + j) < m.max_depth_k k

/-- Two histories of calls, one of each model, with the same inputs; the states of the first one stay inside
their bounds. -/
inductive BothRun (F : ℕ → Bool) (m : Model) (P : Plan) (m' : Model) (P' : Plan) :
    Obj → Obj → Obj → Obj → Prop
  | nil (o o' : Obj) : BothRun F m P m' P' o o' o o'
  | cons {o o' o1 o1' a a' : Obj} {f : Bool} {inp inp' : Inputs} : SameInputs F m inp inp' →
    GoodInputs m P inp → Calls1 m P f inp o o1 → Calls1 m' P' f inp' o' o1' → WithinBounds F m o1.cur →
    BothRun F m P m' P' o1 o1' a a' → BothRun F m P m' P' o o' a a'

end Pipedream.Step
