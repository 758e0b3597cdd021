import Verif.WholeProps
import Verif.PhysicsProps

/-!
# Networks inside networks (specification for C108–C110)

A model `m` sits in a model `m'` when every superjunction, superlink and control of `m` has a place in
`m'` with the same data and the same neighbours. This covers two situations: `m'` is `m` with its tables
in another order, or `m` is a part of `m'` to which nothing else of `m'` is attached.
-/

namespace Pipedream.Step

open Pipedream.Sweep Pipedream.Link Pipedream.Superlink Pipedream.Control Pipedream.Network
open Pipedream.Geometry Pipedream.Interp

/-- Places of superjunctions, superlinks, orifices, weirs and pumps. -/
structure Places where
  J : ℕ → ℕ
  K : ℕ → ℕ
  O : ℕ → ℕ
  W : ℕ → ℕ
  Pp : ℕ → ℕ

/-- The tables of links and junctions agree with the layout: first and last links, upstream junctions. -/
structure LinkTables (m : Model) (P : Plan) : Prop extends StartTables m where
  Ik : ∀ k, k < m.ix.NK → ∀ j, j < m.ix.nk k → P.Ik (m.ix.i_1k k + j) = m.ix.I_1k k + j

/-- `m'` contains a copy of `m` at the places `φ`. -/
structure Copy (m : Model) (P : Plan) (m' : Model) (P' : Plan) (φ : Places) : Prop where
  g : m'.g = m.g
  md : m'.min_depth = m.min_depth
  em : m'.end_method = m.end_method
  back : m'.back = m.back
  eps : P'.eps = P.eps
  ell : P'.ell = P.ell
  damp : P'.damp = P.damp
  J_lt : ∀ j, j < m.M → φ.J j < m'.M
  J_inj : ∀ i j, i < m.M → j < m.M → φ.J i = φ.J j → i = j
  K_lt : ∀ k, k < m.ix.NK → φ.K k < m'.ix.NK
  K_inj : ∀ i j, i < m.ix.NK → j < m.ix.NK → φ.K i = φ.K j → i = j
  O_lt : ∀ k, k < m.n_o → φ.O k < m'.n_o
  O_inj : ∀ i j, i < m.n_o → j < m.n_o → φ.O i = φ.O j → i = j
  W_lt : ∀ k, k < m.n_w → φ.W k < m'.n_w
  W_inj : ∀ i j, i < m.n_w → j < m.n_w → φ.W i = φ.W j → i = j
  P_lt : ∀ k, k < m.n_p → φ.Pp k < m'.n_p
  P_inj : ∀ i j, i < m.n_p → j < m.n_p → φ.Pp i = φ.Pp j → i = j
  bc : ∀ j, j < m.M → m'.bc (φ.J j) = m.bc j
  z_inv : ∀ j, j < m.M → m'.z_inv (φ.J j) = m.z_inv j
  max_depth : ∀ j, j < m.M → m'.max_depth (φ.J j) = m.max_depth j
  storage : ∀ j, j < m.M → P'.storage (φ.J j) = P.storage j
  Ju : ∀ k, k < m.ix.NK → m'.Ju (φ.K k) = φ.J (m.Ju k)
  Jd : ∀ k, k < m.ix.NK → m'.Jd (φ.K k) = φ.J (m.Jd k)
  nk : ∀ k, k < m.ix.NK → m'.ix.nk (φ.K k) = m.ix.nk k
  max_depth_k : ∀ k, k < m.ix.NK → m'.max_depth_k (φ.K k) = m.max_depth_k k
  dx_uk : ∀ k, k < m.ix.NK → m'.dx_uk (φ.K k) = m.dx_uk k
  dx_dk : ∀ k, k < m.ix.NK → m'.dx_dk (φ.K k) = m.dx_dk k
  z_uk : ∀ k, k < m.ix.NK → m'.z_uk (φ.K k) = m.z_uk k
  z_dk : ∀ k, k < m.ix.NK → m'.z_dk (φ.K k) = m.z_dk k
  C_uk : ∀ k, k < m.ix.NK → m'.C_uk (φ.K k) = m.C_uk k
  C_dk : ∀ k, k < m.ix.NK → m'.C_dk (φ.K k) = m.C_dk k
  dx : ∀ k, k < m.ix.NK → ∀ j, j < m.ix.nk k → m'.dx (m'.ix.i_1k (φ.K k) + j) = m.dx (m.ix.i_1k k + j)
  n : ∀ k, k < m.ix.NK → ∀ j, j < m.ix.nk k → m'.n (m'.ix.i_1k (φ.K k) + j) = m.n (m.ix.i_1k k + j)
  A_c : ∀ k, k < m.ix.NK → ∀ j, j < m.ix.nk k → m'.A_c (m'.ix.i_1k (φ.K k) + j) = m.A_c (m.ix.i_1k k + j)
  C : ∀ k, k < m.ix.NK → ∀ j, j < m.ix.nk k → m'.C (m'.ix.i_1k (φ.K k) + j) = m.C (m.ix.i_1k k + j)
  ctrl : ∀ k, k < m.ix.NK → ∀ j, j < m.ix.nk k → m'.ctrl (m'.ix.i_1k (φ.K k) + j) = m.ctrl (m.ix.i_1k k + j)
  method : ∀ k, k < m.ix.NK → ∀ j, j < m.ix.nk k →
    m'.method (m'.ix.i_1k (φ.K k) + j) = m.method (m.ix.i_1k k + j)
  S_o : ∀ k, k < m.ix.NK → ∀ j, j < m.ix.nk k → m'.S_o (m'.ix.i_1k (φ.K k) + j) = m.S_o (m.ix.i_1k k + j)
  sec : ∀ k, k < m.ix.NK → ∀ j, j < m.ix.nk k → P'.sec (m'.ix.i_1k (φ.K k) + j) = P.sec (m.ix.i_1k k + j)
  A_S : ∀ k, k < m.ix.NK → ∀ j, j ≤ m.ix.nk k → m'.A_S (m'.ix.I_1k (φ.K k) + j) = m.A_S (m.ix.I_1k k + j)
  Juo : ∀ k, k < m.n_o → m'.Juo (φ.O k) = φ.J (m.Juo k)
  Jdo : ∀ k, k < m.n_o → m'.Jdo (φ.O k) = φ.J (m.Jdo k)
  orifice : ∀ k, k < m.n_o → m'.orifice (φ.O k) = m.orifice k
  Co : ∀ k, k < m.n_o → m'.Co (φ.O k) = m.Co k
  oShape : ∀ k, k < m.n_o → P'.oShape (φ.O k) = P.oShape k
  oGP : ∀ k, k < m.n_o → P'.oGP (φ.O k) = P.oGP k
  Juw : ∀ k, k < m.n_w → m'.Juw (φ.W k) = φ.J (m.Juw k)
  Jdw : ∀ k, k < m.n_w → m'.Jdw (φ.W k) = φ.J (m.Jdw k)
  weir : ∀ k, k < m.n_w → m'.weir (φ.W k) = m.weir k
  Jup : ∀ k, k < m.n_p → m'.Jup (φ.Pp k) = φ.J (m.Jup k)
  Jdp : ∀ k, k < m.n_p → m'.Jdp (φ.Pp k) = φ.J (m.Jdp k)
  pump : ∀ k, k < m.n_p → m'.pump (φ.Pp k) = m.pump k

/-- Elements of `m'` at superjunctions of the copy belong to the copy. -/
structure Isolated (m m' : Model) (φ : Places) : Prop where
  K : ∀ k', k' < m'.ix.NK → (∃ j, j < m.M ∧ (m'.Ju k' = φ.J j ∨ m'.Jd k' = φ.J j)) →
    ∃ k, k < m.ix.NK ∧ φ.K k = k'
  O : ∀ k', k' < m'.n_o → (∃ j, j < m.M ∧ (m'.Juo k' = φ.J j ∨ m'.Jdo k' = φ.J j)) → ∃ k, k < m.n_o ∧ φ.O k = k'
  W : ∀ k', k' < m'.n_w → (∃ j, j < m.M ∧ (m'.Juw k' = φ.J j ∨ m'.Jdw k' = φ.J j)) → ∃ k, k < m.n_w ∧ φ.W k = k'
  P : ∀ k', k' < m'.n_p → (∃ j, j < m.M ∧ (m'.Jup k' = φ.J j ∨ m'.Jdp k' = φ.J j)) → ∃ k, k < m.n_p ∧ φ.Pp k = k'

/-- The state of `m'` shows the state of `m` at the places of the copy. -/
structure ShowsState (m m' : Model) (φ : Places) (s s' : Hyd) : Prop where
  H : ∀ j, j < m.M → s'.H (φ.J j) = s.H j
  h : ∀ k, k < m.ix.NK → ∀ j, j ≤ m.ix.nk k → s'.h (m'.ix.I_1k (φ.K k) + j) = s.h (m.ix.I_1k k + j)
  Q : ∀ k, k < m.ix.NK → ∀ j, j < m.ix.nk k → s'.Q (m'.ix.i_1k (φ.K k) + j) = s.Q (m.ix.i_1k k + j)
  Qu : ∀ k, k < m.ix.NK → s'.Qu (φ.K k) = s.Qu k
  Qd : ∀ k, k < m.ix.NK → s'.Qd (φ.K k) = s.Qd k
  Qo : ∀ k, k < m.n_o → s'.Qo (φ.O k) = s.Qo k
  Qw : ∀ k, k < m.n_w → s'.Qw (φ.W k) = s.Qw k
  Qp : ∀ k, k < m.n_p → s'.Qp (φ.Pp k) = s.Qp k

/-- The same for whole objects: current state, saved state, end switches, orifice areas. -/
structure Shows (m m' : Model) (φ : Places) (o o' : Obj) : Prop where
  cur : ShowsState m m' φ o.cur o'.cur
  saved : ShowsState m m' φ o.saved o'.saved
  thu : ∀ k, k < m.ix.NK → o'.hid.thu (φ.K k) = o.hid.thu k
  thd : ∀ k, k < m.ix.NK → o'.hid.thd (φ.K k) = o.hid.thd k
  Ao : ∀ k, k < m.n_o → o'.hid.Ao (φ.O k) = o.hid.Ao k

/-- The inputs of `m'` are those of `m` at the places of the copy. -/
structure ShowsInputs (m m' : Model) (φ : Places) (inp inp' : Inputs) : Prop where
  dt : inp'.dt = inp.dt
  given : inp'.H_bc.isSome = inp.H_bc.isSome
  H_bc : ∀ f f', inp.H_bc = some f → inp'.H_bc = some f' → ∀ j, j < m.M → f' (φ.J j) = f j
  Q_in : ∀ j, j < m.M → inp'.Q_in (φ.J j) = inp.Q_in j
  Q_0Ik : ∀ k, k < m.ix.NK → ∀ j, j ≤ m.ix.nk k →
    inp'.Q_0Ik (m'.ix.I_1k (φ.K k) + j) = inp.Q_0Ik (m.ix.I_1k k + j)
  u_o : ∀ k, k < m.n_o → inp'.u_o (φ.O k) = inp.u_o k
  u_w : ∀ k, k < m.n_w → inp'.u_w (φ.W k) = inp.u_w k
  u_p : ∀ k, k < m.n_p → inp'.u_p (φ.Pp k) = inp.u_p k

/-- Two lists of calls, one for each model, that match call by call. -/
inductive ShowsCalls (m m' : Model) (φ : Places) : List (Bool × Inputs) → List (Bool × Inputs) → Prop
  | nil : ShowsCalls m m' φ [] []
  | cons {f : Bool} {inp inp' : Inputs} {l l' : List (Bool × Inputs)} :
    ShowsInputs m m' φ inp inp' → ShowsCalls m m' φ l l' →
    ShowsCalls m m' φ ((f, inp) :: l) ((f, inp') :: l')

end Pipedream.Step
