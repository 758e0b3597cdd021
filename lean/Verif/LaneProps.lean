import Verif.SplitProps
import Verif.PartProps
import Verif.SymmetryProps

/-!
# C205: a channel divided lengthwise

A superlink is replaced by several superlinks side by side, each with a share of its width: areas, widths and junction
areas are divided in proportion to the shares, depths and hydraulic radii are those of the undivided channel.  The
network then computes the same heads and depths, and the flow is divided in proportion to the shares.  Wide channels
and tabulated sections can be divided in this way; open rectangular channels cannot, since every wall adds friction.
-/

namespace Pipedream.Step

open Pipedream.Sweep Pipedream.Link Pipedream.Superlink Pipedream.Control Pipedream.Network
open Pipedream.Geometry Pipedream.Interp

/-! ### Specification -/

/-- Section `s'` is the share `w` of section `s`: same depths, `w` times the area and the width, same hydraulic radius. -/
structure SecShare (eps : ℝ) (ell : GP → ℝ → ℝ → ℝ) (w : ℝ) (s s' : Section) : Prop where
  A : ∀ h1 h2, s'.A h1 h2 = w * s.A h1 h2
  B : ∀ h1 h2, s'.B h1 h2 = w * s.B h1 h2
  R : ∀ h1 h2, s'.R eps ell h1 h2 = s.R eps ell h1 h2

/-- `m'` is the network `m` with its superlinks divided lengthwise: superlink `k'` of `m'` is a part of superlink
`sh.of k'` of `m` with the share `sh.lam k'` of its width.  Superjunctions and controls are the same. -/
structure Lanes (m : Model) (P : Plan) (m' : Model) (P' : Plan) (sh : Shares m.ix.NK) : Prop where
  NK : m'.ix.NK = sh.n'
  g : m'.g = m.g
  M : m'.M = m.M
  bc : m'.bc = m.bc
  z_inv : m'.z_inv = m.z_inv
  max_depth : m'.max_depth = m.max_depth
  min_depth : m'.min_depth = m.min_depth
  em : m'.end_method = m.end_method
  back : m'.back = m.back
  n_o : m'.n_o = m.n_o
  Juo : m'.Juo = m.Juo
  Jdo : m'.Jdo = m.Jdo
  orifice : m'.orifice = m.orifice
  Co : m'.Co = m.Co
  n_w : m'.n_w = m.n_w
  Juw : m'.Juw = m.Juw
  Jdw : m'.Jdw = m.Jdw
  weir : m'.weir = m.weir
  n_p : m'.n_p = m.n_p
  Jup : m'.Jup = m.Jup
  Jdp : m'.Jdp = m.Jdp
  pump : m'.pump = m.pump
  eps : P'.eps = P.eps
  ell : P'.ell = P.ell
  damp : P'.damp = P.damp
  storage : P'.storage = P.storage
  oShape : P'.oShape = P.oShape
  oGP : P'.oGP = P.oGP
  Ju : ∀ k, k < sh.n' → m'.Ju k = m.Ju (sh.of k)
  Jd : ∀ k, k < sh.n' → m'.Jd k = m.Jd (sh.of k)
  nk : ∀ k, k < sh.n' → m'.ix.nk k = m.ix.nk (sh.of k)
  max_depth_k : ∀ k, k < sh.n' → m'.max_depth_k k = m.max_depth_k (sh.of k)
  dx_uk : ∀ k, k < sh.n' → m'.dx_uk k = m.dx_uk (sh.of k)
  dx_dk : ∀ k, k < sh.n' → m'.dx_dk k = m.dx_dk (sh.of k)
  z_uk : ∀ k, k < sh.n' → m'.z_uk k = m.z_uk (sh.of k)
  z_dk : ∀ k, k < sh.n' → m'.z_dk k = m.z_dk (sh.of k)
  C_uk : ∀ k, k < sh.n' → m'.C_uk k = m.C_uk (sh.of k)
  C_dk : ∀ k, k < sh.n' → m'.C_dk k = m.C_dk (sh.of k)
  dx : ∀ k, k < sh.n' → ∀ j, j < m.ix.nk (sh.of k) → m'.dx (m'.ix.i_1k k + j) = m.dx (m.ix.i_1k (sh.of k) + j)
  n : ∀ k, k < sh.n' → ∀ j, j < m.ix.nk (sh.of k) → m'.n (m'.ix.i_1k k + j) = m.n (m.ix.i_1k (sh.of k) + j)
  A_c : ∀ k, k < sh.n' → ∀ j, j < m.ix.nk (sh.of k) →
    m'.A_c (m'.ix.i_1k k + j) = sh.lam k * m.A_c (m.ix.i_1k (sh.of k) + j)
  C : ∀ k, k < sh.n' → ∀ j, j < m.ix.nk (sh.of k) → m'.C (m'.ix.i_1k k + j) = m.C (m.ix.i_1k (sh.of k) + j)
  ctrl : ∀ k, k < sh.n' → ∀ j, j < m.ix.nk (sh.of k) → m'.ctrl (m'.ix.i_1k k + j) = m.ctrl (m.ix.i_1k (sh.of k) + j)
  method : ∀ k, k < sh.n' → ∀ j, j < m.ix.nk (sh.of k) →
    m'.method (m'.ix.i_1k k + j) = m.method (m.ix.i_1k (sh.of k) + j)
  S_o : ∀ k, k < sh.n' → ∀ j, j < m.ix.nk (sh.of k) → m'.S_o (m'.ix.i_1k k + j) = m.S_o (m.ix.i_1k (sh.of k) + j)
  A_S : ∀ k, k < sh.n' → ∀ j, j ≤ m.ix.nk (sh.of k) →
    m'.A_S (m'.ix.I_1k k + j) = sh.lam k * m.A_S (m.ix.I_1k (sh.of k) + j)
  sec : ∀ k, k < sh.n' → ∀ j, j < m.ix.nk (sh.of k) →
    SecShare P.eps P.ell (sh.lam k) (P.sec (m.ix.i_1k (sh.of k) + j)) (P'.sec (m'.ix.i_1k k + j))

/-- `s'` is the state `s` with the flow of every superlink divided among its lanes. -/
structure LaneState (m m' : Model) (sh : Shares m.ix.NK) (s s' : Hyd) : Prop where
  H : ∀ j, j < m.M → s'.H j = s.H j
  h : ∀ k, k < sh.n' → ∀ j, j ≤ m.ix.nk (sh.of k) → s'.h (m'.ix.I_1k k + j) = s.h (m.ix.I_1k (sh.of k) + j)
  Q : ∀ k, k < sh.n' → ∀ j, j < m.ix.nk (sh.of k) →
    s'.Q (m'.ix.i_1k k + j) = sh.lam k * s.Q (m.ix.i_1k (sh.of k) + j)
  Qu : ∀ k, k < sh.n' → s'.Qu k = sh.lam k * s.Qu (sh.of k)
  Qd : ∀ k, k < sh.n' → s'.Qd k = sh.lam k * s.Qd (sh.of k)
  Qo : ∀ k, k < m.n_o → s'.Qo k = s.Qo k
  Qw : ∀ k, k < m.n_w → s'.Qw k = s.Qw k
  Qp : ∀ k, k < m.n_p → s'.Qp k = s.Qp k

/-- The same for whole objects. -/
structure LaneObj (m m' : Model) (sh : Shares m.ix.NK) (o o' : Obj) : Prop where
  cur : LaneState m m' sh o.cur o'.cur
  saved : LaneState m m' sh o.saved o'.saved
  thu : ∀ k, k < sh.n' → o'.hid.thu k = o.hid.thu (sh.of k)
  thd : ∀ k, k < sh.n' → o'.hid.thd k = o.hid.thd (sh.of k)
  Ao : ∀ k, k < m.n_o → o'.hid.Ao k = o.hid.Ao k

/-- The same inputs, with the lateral inflows divided among the lanes. -/
structure LaneInputs (m m' : Model) (sh : Shares m.ix.NK) (inp inp' : Inputs) : Prop where
  dt : inp'.dt = inp.dt
  H_bc : inp'.H_bc = inp.H_bc
  Q_in : inp'.Q_in = inp.Q_in
  Q_0Ik : ∀ k, k < sh.n' → ∀ j, j ≤ m.ix.nk (sh.of k) →
    inp'.Q_0Ik (m'.ix.I_1k k + j) = sh.lam k * inp.Q_0Ik (m.ix.I_1k (sh.of k) + j)
  u_o : inp'.u_o = inp.u_o
  u_w : inp'.u_w = inp.u_w
  u_p : inp'.u_p = inp.u_p

/-- Two lists of calls, one for each network, that match call by call. -/
inductive LaneCalls (m m' : Model) (sh : Shares m.ix.NK) : List (Bool × Inputs) → List (Bool × Inputs) → Prop
  | nil : LaneCalls m m' sh [] []
  | cons {f : Bool} {inp inp' : Inputs} {l l' : List (Bool × Inputs)} :
      LaneInputs m m' sh inp inp' → LaneCalls m m' sh l l' → LaneCalls m m' sh ((f, inp) :: l) ((f, inp') :: l')

/-! ### One superlink -/

theorem sdiv_num (w n d : ℝ) : safeDivide (w * n) d = w * safeDivide n d := by
  simp only [safeDivide_eq, mul_div_assoc]

theorem sdiv_both {w : ℝ} (hw : w ≠ 0) (n d : ℝ) : safeDivide (w * n) (w * d) = safeDivide n d := by
  simp only [safeDivide_eq, mul_div_mul_left _ _ hw]

/-- The coefficients of a lane of share `w`. -/
structure CoShare (w : ℝ) (n : ℕ) (co co' : Coef ℝ) : Prop where
  a : ∀ i, i < n → co'.a i = co.a i
  b : ∀ i, i < n → co'.b i = co.b i
  c : ∀ i, i < n → co'.c i = co.c i
  P : ∀ i, i < n → co'.P i = w * co.P i
  A : ∀ i, i < n → co'.A i = w * co.A i
  E : ∀ i, i ≤ n → co'.E i = w * co.E i
  D : ∀ i, i ≤ n → co'.D i = w * co.D i

theorem CoShare.fwd {g w : ℝ} (hw : w ≠ 0) {co co' : Coef ℝ} {n : ℕ} (hn : 1 ≤ n) {T U V W : ℕ → ℝ}
    (e : CoShare w n co co') (R : FwdRel g co n T U V W) :
    FwdRel g co' n T (fun j => w * U j) (fun j => w * V j) (fun j => w * W j) := by
  refine ⟨?_, ?_, ?_, ?_, fun j hj => ?_, fun j hj => ?_, fun j hj => ?_, fun j hj => ?_⟩
  · rw [R.T0, e.a 0 hn, e.b 0 hn, e.c 0 hn]
  · simp only [R.U0, e.E 1 hn, e.c 0 hn, e.A 0 hn, U_1k]
    rw [← sdiv_num]; ring_nf
  · simp only [R.V0, e.P 0 hn, e.D 1 hn, e.D 0 (by omega), e.c 0 hn, e.a 0 hn, V_1k]
    rw [← sdiv_num]; ring_nf
  · simp only [R.W0, e.A 0 hn, e.a 0 hn, e.E 0 (by omega), W_1k]
    rw [← sdiv_num]; ring_nf
  · simp only [R.Ts j hj, e.a _ hj, e.b _ hj, e.c _ hj, e.A _ hj, e.E _ hj.le, T_ik]
    rw [← sdiv_both hw (g * co.A (j + 1) - co.E (j + 1) * co.a (j + 1)) (U j - co.E (j + 1))]; ring_nf
  · simp only [R.Us j hj, e.E (j + 2) (by omega), e.c _ hj, e.A _ hj, U_Ik]
    rw [← sdiv_num]; ring_nf
  · simp only [R.Vs j hj, e.P _ hj, e.a _ hj, e.D (j + 1) hj.le, e.D (j + 2) (by omega), e.c _ hj, e.A _ hj,
      e.E _ hj.le, V_Ik]
    rw [← sdiv_num, show (g * (w * co.A (j + 1)) - w * co.E (j + 1) * co.a (j + 1)) * (w * V j + w * co.D (j + 1)) =
      w * ((g * co.A (j + 1) - co.E (j + 1) * co.a (j + 1)) * (V j + co.D (j + 1)) * w) by ring,
      show w * U j - w * co.E (j + 1) = w * (U j - co.E (j + 1)) by ring, mul_div_mul_left _ _ hw]
    congr 1; ring
  · simp only [R.Ws j hj, e.A _ hj, e.E _ hj.le, e.a _ hj, W_Ik]
    rw [← sdiv_num, ← sdiv_both hw (w * _)]; ring_nf

theorem CoShare.bwd {g w : ℝ} (hw : w ≠ 0) {co co' : Coef ℝ} {n : ℕ} (hn : 1 ≤ n) {O X Y Z : ℕ → ℝ}
    (e : CoShare w n co co') (R : BwdRel g co n O X Y Z) :
    BwdRel g co' n O (fun j => w * X j) (fun j => w * Y j) (fun j => w * Z j) := by
  have hl : n - 1 < n := by omega
  refine ⟨?_, ?_, ?_, ?_, fun j h0 hj => ?_, fun j h0 hj => ?_, fun j h0 hj => ?_, fun j h0 hj => ?_⟩
  · rw [R.On, e.a _ hl, e.b _ hl, e.c _ hl]
  · simp only [R.Xn, e.E _ hl.le, e.a _ hl, e.A _ hl, X_Nk]
    rw [← sdiv_num]; ring_nf
  · simp only [R.Yn, e.P _ hl, e.D (n - 1) hl.le, e.D n le_rfl, e.c _ hl, e.a _ hl, Y_Nk]
    rw [← sdiv_num]; ring_nf
  · simp only [R.Zn, e.A _ hl, e.c _ hl, e.E n le_rfl, Z_Nk]
    rw [← sdiv_num]; ring_nf
  · have h : j < n := by omega
    simp only [R.Os j h0 hj, e.a _ h, e.b _ h, e.c _ h, e.A _ h, e.E (j + 1) (by omega), O_ik]
    rw [← sdiv_both hw (g * co.A j - co.E (j + 1) * co.c j) (X (j + 1) + co.E (j + 1))]; ring_nf
  · have h : j < n := by omega
    simp only [R.Xs j h0 hj, e.E j h.le, e.a _ h, e.A _ h, X_Ik]
    rw [← sdiv_num]; ring_nf
  · have h : j < n := by omega
    simp only [R.Ys j h0 hj, e.P _ h, e.a _ h, e.D j h.le, e.D (j + 1) (by omega), e.c _ h, e.A _ h,
      e.E (j + 1) (by omega), Y_Ik]
    rw [← sdiv_num, show (g * (w * co.A j) - w * co.E (j + 1) * co.c j) * (w * co.D (j + 1) - w * Y (j + 1)) =
      w * ((g * co.A j - co.E (j + 1) * co.c j) * (co.D (j + 1) - Y (j + 1)) * w) by ring,
      show w * X (j + 1) + w * co.E (j + 1) = w * (X (j + 1) + co.E (j + 1)) by ring, mul_div_mul_left _ _ hw]
    congr 1; ring
  · have h : j < n := by omega
    simp only [R.Zs j h0 hj, e.A _ h, e.E (j + 1) (by omega), e.c _ h, Z_Ik]
    rw [← sdiv_num, ← sdiv_both hw (w * _)]; ring_nf

/-- Recurrence coefficients at the ends of a lane. -/
def EndRec.share (w : ℝ) (r : EndRec ℝ) : EndRec ℝ := ⟨w * r.X, w * r.Y, w * r.Z, w * r.U, w * r.V, w * r.W⟩

/-- Head coefficients of a lane. -/
noncomputable def HeadCoef.share (w : ℝ) (c : HeadCoef ℝ) : HeadCoef ℝ :=
  ⟨c.kappa_u / w, c.lam_u, c.mu_u, c.kappa_d / w, c.lam_d, c.mu_d⟩

theorem headCoefZ_share {w : ℝ} (hw : 0 < w) (g Hu Hd Qu Qd C_u C_d A_u A_d z_u z_d : ℝ) :
    headCoefZ g Hu Hd (w * Qu) (w * Qd) C_u C_d (w * A_u) (w * A_d) z_u z_d =
      HeadCoef.share w (headCoefZ g Hu Hd Qu Qd C_u C_d A_u A_d z_u z_d) := by
  have h0 := hw.ne'
  simp only [headCoefZ, HeadCoef.share, HeadCoef.mk.injEq, gammaUk, gammaDk, safeDivide_eq, abs_mul, abs_of_pos hw,
    true_and, and_true]
  constructor
  · rw [show -(w * |Qu|) * C_u = w * (-|Qu| * C_u) by ring, show 2 * (w * A_u) ^ 2 * g = w * (w * (2 * A_u ^ 2 * g)) by ring,
      mul_div_mul_left _ _ h0, div_div, mul_comm w]
  · rw [show w * |Qd| * C_d = w * (|Qd| * C_d) by ring, show 2 * (w * A_d) ^ 2 * g = w * (w * (2 * A_d ^ 2 * g)) by ring,
      mul_div_mul_left _ _ h0, div_div, mul_comm w]

section ends

variable {w : ℝ} (hw : w ≠ 0) (r : EndRec ℝ) (c : HeadCoef ℝ)
include hw

theorem wk_cancel (x k : ℝ) : w * x * (k / w) = x * k := by field_simp

theorem DkStar_share : DkStar (EndRec.share w r) (HeadCoef.share w c) = DkStar r c := by
  simp only [DkStar, EndRec.share, HeadCoef.share, wk_cancel hw]

theorem coefs_share :
    alphaUk (EndRec.share w r) (HeadCoef.share w c) = w * alphaUk r c ∧
    betaUk (EndRec.share w r) (HeadCoef.share w c) = w * betaUk r c ∧
    chiUk (EndRec.share w r) (HeadCoef.share w c) = w * chiUk r c ∧
    alphaDk (EndRec.share w r) (HeadCoef.share w c) = w * alphaDk r c ∧
    betaDk (EndRec.share w r) (HeadCoef.share w c) = w * betaDk r c ∧
    chiDk (EndRec.share w r) (HeadCoef.share w c) = w * chiDk r c := by
  refine ⟨?_, ?_, ?_, ?_, ?_, ?_⟩ <;>
    simp only [alphaUk, betaUk, chiUk, alphaDk, betaDk, chiDk, DkStar_share hw] <;>
    simp only [EndRec.share, HeadCoef.share, wk_cancel hw, ← sdiv_num] <;> ring_nf

theorem Quk_share (a b : ℝ) : Quk (EndRec.share w r) (HeadCoef.share w c) a b = w * Quk r c a b := by
  obtain ⟨h1, h2, h3, -⟩ := coefs_share hw r c
  simp only [Quk, h1, h2, h3]; ring

theorem Qdk_share (a b : ℝ) : Qdk (EndRec.share w r) (HeadCoef.share w c) a b = w * Qdk r c a b := by
  obtain ⟨-, -, -, h1, h2, h3⟩ := coefs_share hw r c
  simp only [Qdk, h1, h2, h3]; ring

theorem huk_share (a b : ℝ) : huk (EndRec.share w r) (HeadCoef.share w c) a b = huk r c a b := by
  rw [huk, Quk_share hw, huk, mul_comm _ (w * _)]
  simp only [HeadCoef.share, wk_cancel hw]; ring

theorem hdk_share (a b : ℝ) : hdk (EndRec.share w r) (HeadCoef.share w c) a b = hdk r c a b := by
  rw [hdk, Qdk_share hw, hdk, mul_comm _ (w * _)]
  simp only [HeadCoef.share, wk_cancel hw]; ring

end ends

theorem intRel_share {w : ℝ} (hw : w ≠ 0) {U V W X Y Z : ℕ → ℝ} {mn mx hu hd : ℝ} {n : ℕ} {back : Bool} {h Q : ℕ → ℝ}
    (R : IntRel U V W X Y Z mn mx hu hd n back h Q) :
    IntRel (fun j => w * U j) (fun j => w * V j) (fun j => w * W j) (fun j => w * X j) (fun j => w * Y j)
      (fun j => w * Z j) mn mx hu hd n back h (fun j => w * Q j) := by
  refine ⟨⟨R.h0, R.hn, fun j h0 h1 hj => ?_, fun j h0 h1 hj => ?_⟩, ?_⟩
  · simp only [R.Qs j h0 h1 hj, Q_i_f]; ring
  · rw [R.hs j h0 h1 hj]
    congr 1
    simp only [h_i_b]
    rw [← sdiv_both hw]; ring_nf
  · simp only [R.Q0]
    cases back <;> simp only [Q_i_f, Q_i_b, if_true, Bool.false_eq_true, if_false] <;> ring

/-! ### Coefficients of a link -/

theorem pyDiv_both {w : ℝ} (hw : w ≠ 0) (n d : ℝ) : pyDiv (w * n) (w * d) = pyDiv n d := by
  simp only [pyDiv, mul_eq_zero, hw, false_or, mul_div_mul_left _ _ hw]

theorem frictionSlope_share {w : ℝ} (hw : 0 < w) (Q dx A R n : ℝ) (method : ℤ) (g : ℝ) :
    frictionSlope (w * Q) dx (w * A) R n method g = frictionSlope Q dx A R n method g := by
  unfold frictionSlope
  by_cases hA : 0 < A
  · rw [if_pos (mul_pos hw hA), if_pos hA]
    simp only [abs_mul, abs_of_pos hw, Real.mul_rpow hw.le (abs_nonneg Q), Real.mul_rpow hw.le hA.le]
    rw [show g * n ^ 2 * (w * |Q|) * dx = w * (g * n ^ 2 * |Q| * dx) by ring, pyDiv_both hw.ne',
      show 1.354 * g * (w ^ (0.85 : ℝ) * |Q| ^ (0.85 : ℝ)) * dx = w ^ (0.85 : ℝ) * (1.354 * g * |Q| ^ (0.85 : ℝ) * dx) by ring,
      pyDiv_both (Real.rpow_pos_of_pos hw _).ne', pyDiv_both hw.ne']
    have : ∀ f : ℝ, pyDiv (0.01274 * g * f * (w * |Q|) * dx) (w * A * R) = pyDiv (0.01274 * g * f * |Q| * dx) (A * R) := by
      intro f
      rw [show 0.01274 * g * f * (w * |Q|) * dx = w * (0.01274 * g * f * |Q| * dx) by ring, mul_assoc w A R,
        pyDiv_both hw.ne']
    simp only [this]
  · rw [if_neg hA, if_neg fun h => hA ((mul_pos_iff_of_pos_left hw).mp h)]

theorem bIk_share {w : ℝ} (hw : 0 < w) (dx dt n Q A R A_c C a c : ℝ) (ctrl : Bool) (sigma : ℝ) (method : ℤ) (g : ℝ) :
    bIk dx dt n (w * Q) (w * A) R (w * A_c) C a c ctrl sigma method g = bIk dx dt n Q A R A_c C a c ctrl sigma method g := by
  have : C * (w * A) * (w * |Q|) / (w * A_c) ^ 2 = C * A * |Q| / A_c ^ 2 := by
    rw [show C * (w * A) * (w * |Q|) = w ^ 2 * (C * A * |Q|) by ring, mul_pow, mul_div_mul_left _ _ (pow_pos hw 2).ne']
  simp only [bIk, frictionSlope_share hw, abs_mul, abs_of_pos hw, this]

theorem uik_share {w : ℝ} (hw : w ≠ 0) (Q A : ℝ) : uik (w * Q) (w * A) = uik Q A := by
  simp only [uik, ne_eq, mul_eq_zero, hw, false_or, mul_div_mul_left _ _ hw]

theorem damping_share {w : ℝ} (hw : 0 < w) (g Q A B : ℝ) : Diag.damping g (w * Q) (w * A) (w * B) = Diag.damping g Q A B := by
  unfold Diag.damping Diag.froude
  rw [sdiv_both hw.ne', Real.sqrt_mul hw.le, show g * (w * A) = w * (g * A) by ring, Real.sqrt_mul hw.le,
    mul_left_comm, sdiv_both (Real.sqrt_pos.mpr hw).ne']

/-! ### One call -/

variable {m m' : Model} {P P' : Plan} {sh : Shares m.ix.NK}

/-- The geometry of the lanes. -/
structure LaneGeo (m m' : Model) (sh : Shares m.ix.NK) (G G' : Geo) : Prop where
  A : ∀ k, k < sh.n' → ∀ j, j < m.ix.nk (sh.of k) → G'.A (m'.ix.i_1k k + j) = sh.lam k * G.A (m.ix.i_1k (sh.of k) + j)
  R : ∀ k, k < sh.n' → ∀ j, j < m.ix.nk (sh.of k) → G'.R (m'.ix.i_1k k + j) = G.R (m.ix.i_1k (sh.of k) + j)
  B : ∀ k, k < sh.n' → ∀ j, j < m.ix.nk (sh.of k) → G'.B (m'.ix.i_1k k + j) = sh.lam k * G.B (m.ix.i_1k (sh.of k) + j)
  sigma : ∀ k, k < sh.n' → ∀ j, j < m.ix.nk (sh.of k) → G'.sigma (m'.ix.i_1k k + j) = G.sigma (m.ix.i_1k (sh.of k) + j)
  A_u : ∀ k, k < sh.n' → G'.A_u k = sh.lam k * G.A_u (sh.of k)
  B_u : ∀ k, k < sh.n' → G'.B_u k = sh.lam k * G.B_u (sh.of k)
  A_d : ∀ k, k < sh.n' → G'.A_d k = sh.lam k * G.A_d (sh.of k)
  B_d : ∀ k, k < sh.n' → G'.B_d k = sh.lam k * G.B_d (sh.of k)
  As : ∀ j, j < m.M → G'.As j = G.As j
  V : ∀ j, j < m.M → G'.V j = G.V j
  Ao : ∀ k, k < m.n_o → G'.Ao k = G.Ao k

theorem lane_geoOf (c : m.Consistent) (lt : LinkTables m P) (lt' : LinkTables m' P') (ln : Lanes m P m' P' sh)
    {hid hid' : Hidden} (tu : ∀ k, k < sh.n' → hid'.thu k = hid.thu (sh.of k))
    (td : ∀ k, k < sh.n' → hid'.thd k = hid.thd (sh.of k)) {Ao Ao' : ℕ → ℝ}
    (hA : ∀ k, k < m.n_o → Ao' k = Ao k) {s s' : Hyd} (st : LaneState m m' sh s s') :
    LaneGeo m m' sh (m.geoOf P hid Ao s) (m'.geoOf P' hid' Ao' s') := by
  have K' : ∀ k, k < sh.n' → k < m'.ix.NK := fun k hk => ln.NK ▸ hk
  have h1 : ∀ k, k < sh.n' → ∀ j, j < m.ix.nk (sh.of k) →
      s'.h (P'.Ik (m'.ix.i_1k k + j)) = s.h (P.Ik (m.ix.i_1k (sh.of k) + j)) := fun k hk j hj => by
    rw [lt.Ik _ (sh.of_lt k hk) j hj, lt'.Ik _ (K' k hk) j (by rw [ln.nk k hk]; exact hj), st.h k hk j hj.le]
  have h2 : ∀ k, k < sh.n' → ∀ j, j < m.ix.nk (sh.of k) →
      s'.h (P'.Ik (m'.ix.i_1k k + j) + 1) = s.h (P.Ik (m.ix.i_1k (sh.of k) + j) + 1) := fun k hk j hj => by
    rw [lt.Ik _ (sh.of_lt k hk) j hj, lt'.Ik _ (K' k hk) j (by rw [ln.nk k hk]; exact hj), add_assoc, add_assoc,
      st.h k hk (j + 1) hj]
  have n1 : ∀ k, k < sh.n' → 1 ≤ m.ix.nk (sh.of k) := fun k hk => c.layout.pos _ (sh.of_lt k hk)
  have s0 : ∀ k, k < sh.n' → SecShare P.eps P.ell (sh.lam k) (P.sec (m.ix.i_1k (sh.of k))) (P'.sec (m'.ix.i_1k k)) :=
    fun k hk => by simpa using ln.sec k hk 0 (n1 k hk)
  have sn : ∀ k, k < sh.n' → SecShare P.eps P.ell (sh.lam k) (P.sec (m.ix.i_1k (sh.of k) + m.ix.nk (sh.of k) - 1))
      (P'.sec (m'.ix.i_1k k + m.ix.nk (sh.of k) - 1)) := fun k hk => by
    have := n1 k hk
    have := ln.sec k hk (m.ix.nk (sh.of k) - 1) (by omega)
    rwa [← Nat.add_sub_assoc (n1 k hk), ← Nat.add_sub_assoc (n1 k hk)] at this
  have hh0 : ∀ k, k < sh.n' → s'.h (m'.ix.I_1k k) = s.h (m.ix.I_1k (sh.of k)) := fun k hk => by
    simpa using st.h k hk 0 (Nat.zero_le _)
  have Hu : ∀ k, k < sh.n' → s'.H (m'.Ju k) = s.H (m.Ju (sh.of k)) := fun k hk => by
    rw [ln.Ju k hk]; exact st.H _ (c.Ju _ (sh.of_lt k hk))
  have Hd : ∀ k, k < sh.n' → s'.H (m'.Jd k) = s.H (m.Jd (sh.of k)) := fun k hk => by
    rw [ln.Jd k hk]; exact st.H _ (c.Jd _ (sh.of_lt k hk))
  refine ⟨fun k hk j hj => ?_, fun k hk j hj => ?_, fun k hk j hj => ?_, fun k hk j hj => ?_, fun k hk => ?_,
    fun k hk => ?_, fun k hk => ?_, fun k hk => ?_, fun j hj => ?_, fun j hj => ?_, fun k hk => ?_⟩
  · simp only [Model.geoOf]; rw [h1 k hk j hj, h2 k hk j hj, (ln.sec k hk j hj).A]
  · simp only [Model.geoOf]; rw [h1 k hk j hj, h2 k hk j hj, ln.eps, ln.ell, (ln.sec k hk j hj).R]
  · simp only [Model.geoOf]; rw [h1 k hk j hj, h2 k hk j hj, (ln.sec k hk j hj).B]
  · simp only [Model.geoOf]
    rw [h1 k hk j hj, h2 k hk j hj, (ln.sec k hk j hj).A, (ln.sec k hk j hj).B, ln.damp, ln.g, st.Q k hk j hj,
      damping_share (sh.pos k hk)]
  · simp only [Model.geoOf, upTo_of_lt _ (K' k hk), upTo_of_lt _ (sh.of_lt k hk)]
    rw [hh0 k hk, tu k hk, Hu k hk, ln.z_uk k hk, (s0 k hk).A]
  · simp only [Model.geoOf, upTo_of_lt _ (K' k hk), upTo_of_lt _ (sh.of_lt k hk)]
    rw [hh0 k hk, tu k hk, Hu k hk, ln.z_uk k hk, (s0 k hk).B]
  · simp only [Model.geoOf, upTo_of_lt _ (K' k hk), upTo_of_lt _ (sh.of_lt k hk)]
    rw [ln.nk k hk, st.h k hk _ le_rfl, td k hk, Hd k hk, ln.z_dk k hk, (sn k hk).A]
  · simp only [Model.geoOf, upTo_of_lt _ (K' k hk), upTo_of_lt _ (sh.of_lt k hk)]
    rw [ln.nk k hk, st.h k hk _ le_rfl, td k hk, Hd k hk, ln.z_dk k hk, (sn k hk).B]
  · simp only [Model.geoOf, ln.M, upTo_of_lt _ hj]
    rw [ln.storage, st.H j hj, ln.z_inv, ln.min_depth]
  · simp only [Model.geoOf, ln.M, upTo_of_lt _ hj]
    rw [ln.storage, st.H j hj, ln.z_inv, ln.min_depth]
  · simp only [Model.geoOf, ln.n_o, upTo_of_lt _ hk]
    exact hA k hk

variable {G G' : Geo} {inp inp' : Inputs} {prev prev' cur cur' : Hyd} {co co' : Coef ℝ} {wk wk' : Work}

theorem lane_coefs (c : m.Consistent) (c' : m'.Consistent) (st : StartTables m) (st' : StartTables m')
    (ln : Lanes m P m' P' sh) (sg : LaneGeo m m' sh G G') (si : LaneInputs m m' sh inp inp')
    (sp : LaneState m m' sh prev prev') (sc : LaneState m m' sh cur cur')
    (h : StepCoefs m.g m.N (m.linkIn G inp prev cur) (m.nodeIn G inp prev) m.nix co)
    (h' : StepCoefs m'.g m'.N (m'.linkIn G' inp' prev' cur') (m'.nodeIn G' inp' prev') m'.nix co')
    {k : ℕ} (hk : k < sh.n') :
    CoShare (sh.lam k) (m.ix.nk (sh.of k)) (co.slice (m.ix.i_1k (sh.of k)) (m.ix.I_1k (sh.of k)))
      (co'.slice (m'.ix.i_1k k) (m'.ix.I_1k k)) := by
  obtain ⟨hl, hE, hD⟩ := h
  obtain ⟨hl', hE', hD'⟩ := h'
  have hK := sh.of_lt k hk
  have hk' : k < m'.ix.NK := ln.NK ▸ hk
  have n1 := c.layout.pos _ hK
  have inN := c.inN _ hK
  have inN' := c'.inN _ hk'
  have nk := ln.nk k hk
  have wp := sh.pos k hk
  rw [nk] at inN'
  have hv : ∀ j, j < m.ix.nk (sh.of k) → uik (cur'.Q (m'.ix.i_1k k + j)) (G'.A (m'.ix.i_1k k + j)) =
      uik (cur.Q (m.ix.i_1k (sh.of k) + j)) (G.A (m.ix.i_1k (sh.of k) + j)) := fun j hj => by
    rw [sc.Q k hk j hj, sg.A k hk j hj, uik_share wp.ne']
  have ha : ∀ j, j < m.ix.nk (sh.of k) → (m'.linkIn G' inp' prev' cur').a (m'.ix.i_1k k + j) =
      (m.linkIn G inp prev cur).a (m.ix.i_1k (sh.of k) + j) := fun j hj => by
    show aIk (uIk m'.dx (fun i => uik (cur'.Q i) (G'.A i)) m'.linkStart _) (G'.sigma _) =
      aIk (uIk m.dx (fun i => uik (cur.Q i) (G.A i)) m.linkStart _) (G.sigma _)
    rw [uIk_copy (st.first _ hK j hj) (st'.first _ hk' j (by rw [nk]; exact hj))
      (fun i hi => ln.dx k hk i (by omega)) (u := fun i => uik (cur.Q i) (G.A i)) (fun i hi => hv i (by omega)), sg.sigma k hk j hj]
  have hc : ∀ j, j < m.ix.nk (sh.of k) → (m'.linkIn G' inp' prev' cur').c (m'.ix.i_1k k + j) =
      (m.linkIn G inp prev cur).c (m.ix.i_1k (sh.of k) + j) := fun j hj => by
    have hs' := st'.last _ hk' j (by rw [nk]; exact hj)
    rw [nk] at hs'
    show cIk (uIp1k m'.dx (fun i => uik (cur'.Q i) (G'.A i)) m'.linkEnd _) (G'.sigma _) =
      cIk (uIp1k m.dx (fun i => uik (cur.Q i) (G.A i)) m.linkEnd _) (G.sigma _)
    rw [uIp1k_copy hj (st.last _ hK j hj) hs' (fun i hi => ln.dx k hk i hi)
      (u := fun i => uik (cur.Q i) (G.A i)) hv, sg.sigma k hk j hj]
  have hJ : ∀ j, j ≤ m.ix.nk (sh.of k) →
      junctionArea (m'.nodeIn G' inp' prev') (m.ix.nk (sh.of k)) (m'.ix.I_1k k) (m'.ix.i_1k k) k j =
      sh.lam k * junctionArea (m.nodeIn G inp prev) (m.ix.nk (sh.of k)) (m.ix.I_1k (sh.of k)) (m.ix.i_1k (sh.of k))
        (sh.of k) j := fun j hj => by
    simp only [junctionArea, Model.nodeIn]
    rw [sg.B_u k hk, sg.B_d k hk, ln.dx_uk k hk, ln.dx_dk k hk, ln.A_S k hk j hj, mul_add, mul_add]
    congr 2
    · by_cases h0 : j = 0
      · simp only [h0, if_true]; ring
      · simp only [h0, if_false]
        rw [Nat.add_sub_assoc (by omega), Nat.add_sub_assoc (by omega), sg.B k hk (j - 1) (by omega),
          ln.dx k hk (j - 1) (by omega)]
        ring
    · by_cases h0 : j = m.ix.nk (sh.of k)
      · simp only [h0, if_true]; ring
      · simp only [h0, if_false]
        rw [sg.B k hk j (by omega), ln.dx k hk j (by omega)]
        ring
  have Nn := fun j (hj : j ≤ m.ix.nk (sh.of k)) => node_coeffs_eq (y := m.nodeIn G inp prev) n1 (c.nodes _ hK) hj
  have Nn' := fun j (hj : j ≤ m.ix.nk (sh.of k)) => node_coeffs_eq (y := m'.nodeIn G' inp' prev') n1
    (nk ▸ c'.nodes _ hk') hj
  refine ⟨fun j hj => ?_, fun j hj => ?_, fun j hj => ?_, fun j hj => ?_, fun j hj => ?_, fun j hj => ?_,
    fun j hj => ?_⟩ <;> simp only [Coef.slice]
  · rw [(hl _ (by omega)).1, (hl' _ (by omega)).1, ha j hj]
  · have e := (hl (m.ix.i_1k (sh.of k) + j) (by omega)).2.1
    have e' := (hl' (m'.ix.i_1k k + j) (by omega)).2.1
    simp only [LinkIn.b, ha j hj, hc j hj] at e e'
    simp only [Model.linkIn] at e e'
    rw [ln.dx k hk j hj, si.dt, ln.n k hk j hj, sc.Q k hk j hj, sg.A k hk j hj, sg.R k hk j hj,
      ln.A_c k hk j hj, ln.C k hk j hj, ln.ctrl k hk j hj, sg.sigma k hk j hj, ln.method k hk j hj, ln.g, bIk_share wp] at e'
    exact Except.ok.inj (e'.symm.trans e)
  · rw [(hl _ (by omega)).2.2.1, (hl' _ (by omega)).2.2.1, hc j hj]
  · rw [(hl _ (by omega)).2.2.2.1, (hl' _ (by omega)).2.2.2.1]
    simp only [LinkIn.P, Model.linkIn]
    rw [sp.Q k hk j hj, ln.dx k hk j hj, si.dt, sg.A k hk j hj, ln.S_o k hk j hj, sg.sigma k hk j hj, ln.g]
    simp only [PIk]; ring
  · rw [(hl _ (by omega)).2.2.2.2, (hl' _ (by omega)).2.2.2.2]
    exact sg.A k hk j hj
  · rw [hE, hE', (Nn j hj).1, (Nn' j hj).1, hJ j hj]
    simp only [Model.nodeIn, si.dt]; ring
  · rw [hD, hD', (Nn j hj).2, (Nn' j hj).2, hJ j hj]
    simp only [Model.nodeIn, si.dt, si.Q_0Ik k hk j hj, sp.h k hk j hj]; ring

theorem lane_sweeps (c : m.Consistent) (c' : m'.Consistent) (ln : Lanes m P m' P' sh) (wk wk' : Work) {k : ℕ}
    (hk : k < sh.n')
    (e : CoShare (sh.lam k) (m.ix.nk (sh.of k)) (co.slice (m.ix.i_1k (sh.of k)) (m.ix.I_1k (sh.of k)))
      (co'.slice (m'.ix.i_1k k) (m'.ix.I_1k k))) :
    (∀ j, j < m.ix.nk (sh.of k) →
      (m'.fwd wk' co').U (m'.ix.I_1k k + j) = sh.lam k * (m.fwd wk co).U (m.ix.I_1k (sh.of k) + j) ∧
      (m'.fwd wk' co').V (m'.ix.I_1k k + j) = sh.lam k * (m.fwd wk co).V (m.ix.I_1k (sh.of k) + j) ∧
      (m'.fwd wk' co').W (m'.ix.I_1k k + j) = sh.lam k * (m.fwd wk co).W (m.ix.I_1k (sh.of k) + j)) ∧
    (∀ j, j < m.ix.nk (sh.of k) →
      (m'.bwd wk' co').X (m'.ix.I_1k k + j) = sh.lam k * (m.bwd wk co).X (m.ix.I_1k (sh.of k) + j) ∧
      (m'.bwd wk' co').Y (m'.ix.I_1k k + j) = sh.lam k * (m.bwd wk co).Y (m.ix.I_1k (sh.of k) + j) ∧
      (m'.bwd wk' co').Z (m'.ix.I_1k k + j) = sh.lam k * (m.bwd wk co).Z (m.ix.I_1k (sh.of k) + j)) ∧
    m'.endRec wk' co' k = EndRec.share (sh.lam k) (m.endRec wk co (sh.of k)) := by
  have hK := sh.of_lt k hk
  have n1 := c.layout.pos _ hK
  have nk := ln.nk k hk
  have w0 := (sh.pos k hk).ne'
  have F' := sweptFwd_rel m'.g co' m'.ix wk'.f c'.layout (ln.NK ▸ hk)
  have B' := sweptBwd_rel m'.g co' m'.ix wk'.b c'.layout (ln.NK ▸ hk)
  rw [nk, ln.g] at F' B'
  have F := fwdRel_unique F' (CoShare.fwd w0 n1 e (sweptFwd_rel m.g co m.ix wk.f c.layout hK))
  have B := bwdRel_unique B' (CoShare.bwd w0 n1 e (sweptBwd_rel m.g co m.ix wk.b c.layout hK))
  rw [← ln.g] at F B
  refine ⟨fun j hj => ?_, fun j hj => ?_, ?_⟩
  · have := (F j hj).2
    unfold Model.fwd; rw [← ln.g]; exact this
  · have := (B j hj).2
    unfold Model.bwd; rw [← ln.g]; exact this
  · obtain ⟨-, u, v, w⟩ := F (m.ix.nk (sh.of k) - 1) (by omega)
    obtain ⟨-, x, y, z⟩ := B 0 (by omega)
    unfold Model.endRec Superlink.endRec Model.fwd Model.bwd
    rw [ln.em, nk, ← ln.g]
    have E0 := e.E 0 (by omega)
    have En := e.E _ le_rfl
    have D0 := e.D 0 (by omega)
    have Dn := e.D _ le_rfl
    cases m.end_method
    · simp only [u, v, w, x, y, z, EndRec.share]
    · simp only [u, v, w, x, y, z, E0, En, D0, Dn, EndRec.share, EndRec.mk.injEq, true_and, and_true]
      refine ⟨?_, ?_, ?_, ?_⟩ <;> ring

theorem lane_headCoef (c : m.Consistent) (ln : Lanes m P m' P' sh) (sg : LaneGeo m m' sh G G')
    (sc : LaneState m m' sh cur cur') {k : ℕ} (hk : k < sh.n') :
    m'.headCoef G' cur' k = HeadCoef.share (sh.lam k) (m.headCoef G cur (sh.of k)) := by
  have hK := sh.of_lt k hk
  unfold Model.headCoef
  rw [← headCoefZ_share (sh.pos k hk), ln.g, ln.Ju k hk, ln.Jd k hk, sc.H _ (c.Ju _ hK), sc.H _ (c.Jd _ hK), sc.Qu k hk,
    sc.Qd k hk, ln.C_uk k hk, ln.C_dk k hk, sg.A_u k hk, sg.A_d k hk, ln.z_uk k hk, ln.z_dk k hk]

/-- A sum over the lanes. -/
theorem Shares.sum_eq {n : ℕ} (sh : Shares n) {F F' : ℕ → ℝ} (e : ∀ k, k < sh.n' → F' k = sh.lam k * F (sh.of k)) :
    ∑ k ∈ Finset.range sh.n', F' k = ∑ k ∈ Finset.range n, F k := by
  have hm : ∀ k' ∈ Finset.range sh.n', sh.of k' ∈ Finset.range n := fun k' hk' =>
    Finset.mem_range.mpr (sh.of_lt k' (Finset.mem_range.mp hk'))
  rw [← Finset.sum_fiberwise_of_maps_to hm]
  refine Finset.sum_congr rfl fun k hk => ?_
  have : ∀ k' ∈ (Finset.range sh.n').filter (fun k' => sh.of k' = k), F' k' = sh.lam k' * F k := fun k' hk' => by
    obtain ⟨h1, h2⟩ := Finset.mem_filter.mp hk'
    rw [e k' (Finset.mem_range.mp h1), h2]
  rw [Finset.sum_congr rfl this, ← Finset.sum_mul, sh.total k (Finset.mem_range.mp hk), one_mul]

/-- The coefficients of every lane. -/
def LaneCoef (m m' : Model) (sh : Shares m.ix.NK) (co co' : Coef ℝ) : Prop :=
  ∀ k, k < sh.n' → CoShare (sh.lam k) (m.ix.nk (sh.of k)) (co.slice (m.ix.i_1k (sh.of k)) (m.ix.I_1k (sh.of k)))
    (co'.slice (m'.ix.i_1k k) (m'.ix.I_1k k))

/-- Inflow from controls with the same tables. -/
theorem ctrl_lane {C C' : Ctrls ℝ} (hn : C'.n = C.n) (Ju : C'.Ju = C.Ju) (Jd : C'.Jd = C.Jd)
    (e : ∀ k, k < C.n → C'.alpha k = C.alpha k ∧ C'.beta k = C.beta k ∧ C'.chi k = C.chi k) (H : ℕ → ℝ) (i : ℕ) :
    C'.inflow H i = C.inflow H i := by
  unfold Ctrls.inflow
  rw [hn]
  refine Finset.sum_congr rfl fun k hk => ?_
  obtain ⟨h1, h2, h3⟩ := e k (Finset.mem_range.mp hk)
  simp only [Ctrls.Q, h1, h2, h3, Ju, Jd]

/-- The head equations of the two networks have the same solutions. -/
theorem solves_lanes (c : m.Consistent) (c' : m'.Consistent) (ln : Lanes m P m' P' sh) (sg : LaneGeo m m' sh G G')
    (si : LaneInputs m m' sh inp inp') (sp : LaneState m m' sh prev prev') (sc : LaneState m m' sh cur cur')
    (e : LaneCoef m m' sh co co') (cw : CleanWork m wk.mats) (cw' : CleanWork m' wk'.mats) {x : ℕ → ℝ} :
    Solves m'.M (m'.lhs G' inp' wk' cur' co') (m'.rhs G' inp' wk' prev' cur' co') x ↔
      Solves m.M (m.lhs G inp wk cur co) (m.rhs G inp wk prev cur co) x := by
  have er : ∀ k, k < sh.n' → m'.endRec wk' co' k = EndRec.share (sh.lam k) (m.endRec wk co (sh.of k)) := fun k hk =>
    (lane_sweeps c c' ln wk wk' hk (e k hk)).2.2
  have hQu : ∀ k, k < sh.n' → (m'.net G' inp' wk' cur' co').links.Qu x k =
      sh.lam k * (m.net G inp wk cur co).links.Qu x (sh.of k) := fun k hk => by
    show Quk (m'.endRec wk' co' k) (m'.headCoef G' cur' k) (x (m'.Ju k)) (x (m'.Jd k)) =
      sh.lam k * Quk (m.endRec wk co (sh.of k)) (m.headCoef G cur (sh.of k)) (x (m.Ju (sh.of k))) (x (m.Jd (sh.of k)))
    rw [er k hk, lane_headCoef c ln sg sc hk, Quk_share (sh.pos k hk).ne', ln.Ju k hk, ln.Jd k hk]
  have hQd : ∀ k, k < sh.n' → (m'.net G' inp' wk' cur' co').links.Qd x k =
      sh.lam k * (m.net G inp wk cur co).links.Qd x (sh.of k) := fun k hk => by
    show Qdk (m'.endRec wk' co' k) (m'.headCoef G' cur' k) (x (m'.Ju k)) (x (m'.Jd k)) =
      sh.lam k * Qdk (m.endRec wk co (sh.of k)) (m.headCoef G cur (sh.of k)) (x (m.Ju (sh.of k))) (x (m.Jd (sh.of k)))
    rw [er k hk, lane_headCoef c ln sg sc hk, Qdk_share (sh.pos k hk).ne', ln.Ju k hk, ln.Jd k hk]
  have hin : ∀ i, (m'.net G' inp' wk' cur' co').links.inflow x i = (m.net G inp wk cur co).links.inflow x i := fun i => by
    unfold Links.inflow
    rw [show (m'.net G' inp' wk' cur' co').links.n = sh.n' from ln.NK]
    refine sh.sum_eq fun k hk => ?_
    rw [hQu k hk, hQd k hk, show (m'.net G' inp' wk' cur' co').links.Ju k = m.Ju (sh.of k) from ln.Ju k hk,
      show (m'.net G' inp' wk' cur' co').links.Jd k = m.Jd (sh.of k) from ln.Jd k hk, mul_sub, mul_ite, mul_ite, mul_zero]
    rfl
  have hxi : ∀ i, (m'.net G' inp' wk' cur' co').links.xiSum i = (m.net G inp wk cur co).links.xiSum i := fun i => by
    unfold Links.xiSum
    rw [show (m'.net G' inp' wk' cur' co').links.n = sh.n' from ln.NK]
    refine sh.sum_eq fun k hk => ?_
    have hK := sh.of_lt k hk
    have e1 : (m'.net G' inp' wk' cur' co').links.xi_u k = sh.lam k * (m.net G inp wk cur co).links.xi_u (sh.of k) := by
      simp only [Model.net, xi]
      rw [ln.dx_uk k hk, sg.B_u k hk, ln.Ju k hk, sc.H _ (c.Ju _ hK), ln.z_uk k hk, si.dt]; ring
    have e2 : (m'.net G' inp' wk' cur' co').links.xi_d k = sh.lam k * (m.net G inp wk cur co).links.xi_d (sh.of k) := by
      simp only [Model.net, xi]
      rw [ln.dx_dk k hk, sg.B_d k hk, ln.Jd k hk, sc.H _ (c.Jd _ hK), ln.z_dk k hk, si.dt]; ring
    rw [e1, e2, show (m'.net G' inp' wk' cur' co').links.Ju k = m.Ju (sh.of k) from ln.Ju k hk,
      show (m'.net G' inp' wk' cur' co').links.Jd k = m.Jd (sh.of k) from ln.Jd k hk, mul_add, mul_ite, mul_ite, mul_zero]
    rfl
  have ho : ∀ i, (m'.net G' inp' wk' cur' co').orifices.inflow x i = (m.net G inp wk cur co).orifices.inflow x i :=
    ctrl_lane (C := (m.net G inp wk cur co).orifices) (C' := (m'.net G' inp' wk' cur' co').orifices) ln.n_o ln.Juo ln.Jdo
      (fun k hk => by
        have : m'.oLin G' inp' wk' cur' k = m.oLin G inp wk cur k := by
          unfold Model.oLin
          rw [ln.g, sc.Qo k hk, sg.Ao k hk, ln.Co, ln.Juo, ln.Jdo, sc.H _ (c.Juo k hk), sc.H _ (c.Jdo k hk), si.u_o,
            ln.orifice]
          exact C11_orifice_no_stale _ _ _ _ _ _ _
        simp only [Model.net, this, and_self]) x
  have hw : ∀ i, (m'.net G' inp' wk' cur' co').weirs.inflow x i = (m.net G inp wk cur co).weirs.inflow x i :=
    ctrl_lane (C := (m.net G inp wk cur co).weirs) (C' := (m'.net G' inp' wk' cur' co').weirs) ln.n_w ln.Juw ln.Jdw
      (fun k hk => by
        have : m'.wLin inp' wk' cur' k = m.wLin inp wk cur k := by
          unfold Model.wLin
          rw [sc.Qw k hk, ln.Juw, ln.Jdw, sc.H _ (c.Juw k hk), sc.H _ (c.Jdw k hk), si.u_w, ln.weir]
          exact C11_weir_no_stale _ _ _ _ _ _ _
        simp only [Model.net, this, and_self]) x
  have hp : ∀ i, (m'.net G' inp' wk' cur' co').pumps.inflow x i = (m.net G inp wk cur co).pumps.inflow x i :=
    ctrl_lane (C := (m.net G inp wk cur co).pumps) (C' := (m'.net G' inp' wk' cur' co').pumps) ln.n_p ln.Jup ln.Jdp
      (fun k hk => by
        have : m'.pLin inp' wk' cur' k = m.pLin inp wk cur k := by
          unfold Model.pLin
          rw [sc.Qp k hk, ln.Jup, ln.Jdp, sc.H _ (c.Jup k hk), sc.H _ (c.Jdp k hk), si.u_p, ln.pump]
          exact C11_pump_no_stale _ _ _ _ _ _ _
        simp only [Model.net, this, and_self]) x
  have l := solves_iff (m.net G inp wk cur co) inp.dt wk.mats cw.mats (wired c) prev.H inp.Q_in (inp.H_bc.getD cur.H) x
  have l' := solves_iff (m'.net G' inp' wk' cur' co') inp'.dt wk'.mats cw'.mats (wired c') prev'.H inp'.Q_in
    (inp'.H_bc.getD cur'.H) x
  refine l'.trans (Iff.trans ?_ l.symm)
  rw [show (m'.net G' inp' wk' cur' co').M = m.M from ln.M, show (m.net G inp wk cur co).M = m.M from rfl]
  refine forall_congr' fun i => forall_congr' fun hi => ?_
  rw [show (m'.net G' inp' wk' cur' co').bc = m.bc from ln.bc, show (m.net G inp wk cur co).bc = m.bc from rfl]
  refine and_congr ?_ (imp_congr Iff.rfl ?_)
  · rw [si.H_bc]
    cases inp.H_bc with
    | none => simp only [Option.getD_none, sc.H i hi]
    | some f => rfl
  · unfold Network.Balanced
    rw [hin, hxi, ho, hw, hp, si.dt, si.Q_in, sp.H i hi, show (m'.net G' inp' wk' cur' co').As i = G.As i from sg.As i hi]
    rfl

theorem lane_advance (c : m.Consistent) (c' : m'.Consistent) (ln : Lanes m P m' P' sh) (sg : LaneGeo m m' sh G G')
    (si : LaneInputs m m' sh inp inp') (sc : LaneState m m' sh cur cur') (e : LaneCoef m m' sh co co') (wk wk' : Work)
    {x x' : ℕ → ℝ} (hx : ∀ j, j < m.M → x' j = x j) :
    LaneState m m' sh (m.advance G inp wk cur co x) (m'.advance G' inp' wk' cur' co' x') := by
  have hH : ∀ i, i < m.M → clipHead m'.z_inv m'.max_depth x' i = clipHead m.z_inv m.max_depth x i := by
    intro i hi; unfold clipHead; rw [hx i hi, ln.z_inv, ln.max_depth]
  have er : ∀ k, k < sh.n' → m'.endRec wk' co' k = EndRec.share (sh.lam k) (m.endRec wk co (sh.of k)) := fun k hk =>
    (lane_sweeps c c' ln wk wk' hk (e k hk)).2.2
  have inn : ∀ k, k < sh.n' → _ := fun k hk => by
    have hK := sh.of_lt k hk
    have w0 := (sh.pos k hk).ne'
    have R := numbaSolveInternals_spec (m.fwd wk co) (m.bwd wk co) m.min_depth m.max_depth_k
      (fun k => huk (m.endRec wk co k) (m.headCoef G cur k) (clipHead m.z_inv m.max_depth x (m.Ju k))
        (clipHead m.z_inv m.max_depth x (m.Jd k)))
      (fun k => hdk (m.endRec wk co k) (m.headCoef G cur k) (clipHead m.z_inv m.max_depth x (m.Ju k))
        (clipHead m.z_inv m.max_depth x (m.Jd k)))
      m.ix.i_1k m.ix.I_1k m.ix.nk m.ix.NK m.back ⟨cur.h, cur.Q⟩ c.layout _ hK
    have R' := numbaSolveInternals_spec (m'.fwd wk' co') (m'.bwd wk' co') m'.min_depth m'.max_depth_k
      (fun k => huk (m'.endRec wk' co' k) (m'.headCoef G' cur' k) (clipHead m'.z_inv m'.max_depth x' (m'.Ju k))
        (clipHead m'.z_inv m'.max_depth x' (m'.Jd k)))
      (fun k => hdk (m'.endRec wk' co' k) (m'.headCoef G' cur' k) (clipHead m'.z_inv m'.max_depth x' (m'.Ju k))
        (clipHead m'.z_inv m'.max_depth x' (m'.Jd k)))
      m'.ix.i_1k m'.ix.I_1k m'.ix.nk m'.ix.NK m'.back ⟨cur'.h, cur'.Q⟩ c'.layout k (ln.NK ▸ hk)
    obtain ⟨F, B, -⟩ := lane_sweeps c c' ln wk wk' hk (e k hk)
    refine intRel_copy (c.layout.pos _ hK) F B ln.min_depth (ln.max_depth_k k hk) ?_ ?_ (ln.nk k hk) ln.back
      (intRel_share w0 R) R'
    · rw [er k hk, lane_headCoef c ln sg sc hk, huk_share w0, ln.Ju k hk, ln.Jd k hk, hH _ (c.Ju _ hK), hH _ (c.Jd _ hK)]
    · rw [er k hk, lane_headCoef c ln sg sc hk, hdk_share w0, ln.Ju k hk, ln.Jd k hk, hH _ (c.Ju _ hK), hH _ (c.Jd _ hK)]
  refine ⟨hH, fun k hk j hj => ?_, fun k hk j hj => (inn k hk).2 j hj, fun k hk => ?_, fun k hk => ?_,
    fun k hk => ?_, fun k hk => ?_, fun k hk => ?_⟩
  · have : ∀ v v' mn mn' : ℝ, v = v' → mn = mn' → (if v < mn then mn else v) = (if v' < mn' then mn' else v') := by
      intro v v' mn mn' h h'; rw [h, h']
    exact this _ _ _ _ ((inn k hk).1 j hj) ln.min_depth
  all_goals simp only [Model.advance]
  · have hK := sh.of_lt k hk
    rw [er k hk, lane_headCoef c ln sg sc hk, Quk_share (sh.pos k hk).ne', ln.Ju k hk, ln.Jd k hk, hH _ (c.Ju _ hK),
      hH _ (c.Jd _ hK)]
  · have hK := sh.of_lt k hk
    rw [er k hk, lane_headCoef c ln sg sc hk, Qdk_share (sh.pos k hk).ne', ln.Ju k hk, ln.Jd k hk, hH _ (c.Ju _ hK),
      hH _ (c.Jd _ hK)]
  · rw [ln.g, sg.Ao k hk, ln.Co, ln.Juo, ln.Jdo, hH _ (c.Juo k hk), hH _ (c.Jdo k hk), si.u_o,
      sg.V _ (c.Juo k hk), sg.V _ (c.Jdo k hk), si.dt, ln.orifice]
  · rw [ln.Juw, ln.Jdw, hH _ (c.Juw k hk), hH _ (c.Jdw k hk), si.u_w, ln.weir]
  · rw [ln.Jup, ln.Jdp, hH _ (c.Jup k hk), hH _ (c.Jdp k hk), si.u_p, ln.pump]

/-! ### The property -/

/-- **C205 (one call).** From corresponding objects, a call of the network with lanes and a call of the undivided
network lead to corresponding objects: same heads and depths, flows divided in proportion to the shares. -/
theorem C205_call (sd : Sound m P) (gi : GoodInputs m P inp) {o o' o1 o1' : Obj} (go : GoodObj m o)
    (c' : m'.Consistent) (cw' : CleanWork m' o'.wk.mats) (lt : LinkTables m P) (lt' : LinkTables m' P')
    (ln : Lanes m P m' P' sh) (lo : LaneObj m m' sh o o') (si : LaneInputs m m' sh inp inp')
    {first : Bool} (h : Calls1 m P first inp o o1) (h' : Calls1 m' P' first inp' o' o1') :
    LaneObj m m' sh o1 o1' := by
  obtain ⟨Ao, co, x, hA, p, rfl⟩ := h
  obtain ⟨Ao', co', x', hA', p', rfl⟩ := h'
  have c := sd.cons
  have eA : ∀ a, a < m.n_o → Ao' a = Ao a := fun a ha => by
    have e := hA a ha
    have e' := hA' a (ln.n_o ▸ ha)
    have ed : m'.orificeDepth o'.cur a = m.orificeDepth o.cur a := by
      unfold Model.orificeDepth
      rw [ln.Juo, ln.Jdo, lo.cur.H _ (c.Juo a ha), lo.cur.H _ (c.Jdo a ha), ln.orifice]
    rw [lo.Ao a ha, ln.oShape, ln.oGP, ed, si.u_o, e] at e'
    exact (Except.ok.inj e').symm
  have sg := lane_geoOf c lt lt' ln lo.thu lo.thd eA lo.cur
  have sp : LaneState m m' sh (if first then o.cur else o.saved) (if first then o'.cur else o'.saved) := by
    cases first
    · exact lo.saved
    · exact lo.cur
  have e : LaneCoef m m' sh co co' := fun k hk =>
    lane_coefs c c' lt.toStartTables lt'.toStartTables ln sg si sp lo.cur p.coefs p'.coefs hk
  have s1 := (solves_lanes c c' ln sg si sp lo.cur e go.clean cw').1 p'.solve
  have hx := (C06_step c (physical_geoOf sd gi o.hid Ao go.wet) go.clean p.coefs _).2 _ _ s1 p.solve
  refine ⟨lane_advance c c' ln sg si lo.cur e _ _ hx, sp, fun k hk => ?_, fun k hk => ?_, fun k hk => ?_⟩
  · have hK := sh.of_lt k hk
    simp only [Model.nextHidden, upTo_of_lt _ hK, upTo_of_lt _ (show k < m'.ix.NK from ln.NK ▸ hk)]
    rw [ln.Ju k hk, lo.cur.H _ (c.Ju _ hK), ln.z_uk k hk]
  · have hK := sh.of_lt k hk
    simp only [Model.nextHidden, upTo_of_lt _ hK, upTo_of_lt _ (show k < m'.ix.NK from ln.NK ▸ hk)]
    rw [ln.Jd k hk, lo.cur.H _ (c.Jd _ hK), ln.z_dk k hk]
  · simp only [Model.nextHidden, ln.n_o, upTo_of_lt _ hk]
    exact eA k hk

/-- **C205 (every run).** Through every sequence of calls the network with lanes shows the heads and depths of the
undivided network, and each lane carries its share of the flow. -/
theorem C205_run (sd : Sound m P) (c' : m'.Consistent) (lt : LinkTables m P) (lt' : LinkTables m' P')
    (ln : Lanes m P m' P' sh) {l l' : List (Bool × Inputs)} (sl : LaneCalls m m' sh l l')
    (hl : ∀ q ∈ l, GoodInputs m P q.2) {o o' a a' : Obj} (go : GoodObj m o) (cw' : CleanWork m' o'.wk.mats)
    (lo : LaneObj m m' sh o o') (r : History m P l o a) (r' : History m' P' l' o' a') : LaneObj m m' sh a a' := by
  induction sl generalizing o o' with
  | nil => cases r; cases r'; exact lo
  | cons si _ ih =>
    obtain ⟨o1, h1, r⟩ := r
    obtain ⟨o1', h1', r'⟩ := r'
    have gi := hl _ List.mem_cons_self
    have s1 := C205_call sd gi go c' cw' lt lt' ln lo si h1 h1'
    have w1 : CleanWork m' o1'.wk.mats := by
      obtain ⟨Ao', co', x', -, -, rfl⟩ := h1'
      exact cw'.next
    exact ih (fun q h => hl q (List.mem_cons_of_mem _ h)) (go.next sd.cons h1) w1 s1 r r'

/-- **C205 (total).** The flows of the lanes of a superlink add up to the flow of the superlink. -/
theorem C205_total {s s' : Hyd} (st : LaneState m m' sh s s') {k : ℕ} (hk : k < m.ix.NK) :
    ∑ k' ∈ (Finset.range sh.n').filter (fun k' => sh.of k' = k), s'.Qu k' = s.Qu k ∧
    ∑ k' ∈ (Finset.range sh.n').filter (fun k' => sh.of k' = k), s'.Qd k' = s.Qd k := by
  have : ∀ F F' : ℕ → ℝ, (∀ k, k < sh.n' → F' k = sh.lam k * F (sh.of k)) →
      ∑ k' ∈ (Finset.range sh.n').filter (fun k' => sh.of k' = k), F' k' = F k := fun F F' e => by
    rw [Finset.sum_congr rfl (g := fun k' => sh.lam k' * F k) fun k' hk' => by
      obtain ⟨h1, h2⟩ := Finset.mem_filter.mp hk'
      rw [e k' (Finset.mem_range.mp h1), h2], ← Finset.sum_mul, sh.total k hk, one_mul]
  exact ⟨this _ _ st.Qu, this _ _ st.Qd⟩

/-- Initial values of the two networks: flows divided among the lanes. -/
structure LaneGiven (m m' : Model) (sh : Shares m.ix.NK) (gv gv' : Given) : Prop where
  h0 : ∀ j, j < m.M → gv'.h0 j = gv.h0 j
  hJ : ∀ k, k < sh.n' → ∀ j, j ≤ m.ix.nk (sh.of k) → gv'.hJ (m'.ix.I_1k k + j) = gv.hJ (m.ix.I_1k (sh.of k) + j)
  Q0 : ∀ k, k < sh.n' → ∀ j, j < m.ix.nk (sh.of k) →
    gv'.Q0 (m'.ix.i_1k k + j) = sh.lam k * gv.Q0 (m.ix.i_1k (sh.of k) + j)
  Ao : ∀ a, a < m.n_o → gv'.Ao a = gv.Ao a

/-- **C205 (from construction).** The same for networks built from tables with divided initial flows. -/
theorem C205_built (sd : Sound m P) (c' : m'.Consistent) (lt : LinkTables m P) (lt' : LinkTables m' P') (nr : NoRound m P)
    (ln : Lanes m P m' P' sh) {gv gv' : Given} (lg : LaneGiven m m' sh gv gv') (wet : ∀ I, m.min_depth ≤ gv.hJ I)
    {l l' : List (Bool × Inputs)} (sl : LaneCalls m m' sh l l') (hl : ∀ q ∈ l, GoodInputs m P q.2) {o o' a a' : Obj}
    (hb : Built m P gv o) (hb' : Built m' P' gv' o') (r : History m P l o a) (r' : History m' P' l' o' a') :
    LaneState m m' sh a.cur a'.cur := by
  have st : LaneState m m' sh (m.start gv) (m'.start gv') := by
    refine ⟨fun j hj => ?_, lg.hJ, lg.Q0, fun k hk => ?_, fun k hk => ?_, fun _ _ => rfl, fun _ _ => rfl, fun _ _ => rfl⟩
    · simp only [Model.start]; rw [lg.h0 j hj, ln.z_inv, ln.min_depth]
    · simpa [Model.start] using lg.Q0 k hk 0 (sd.cons.layout.pos _ (sh.of_lt k hk))
    · have n1 := sd.cons.layout.pos _ (sh.of_lt k hk)
      have := lg.Q0 k hk (m.ix.nk (sh.of k) - 1) (by omega)
      simp only [Model.start]
      rw [ln.nk k hk, Nat.add_sub_assoc n1, Nat.add_sub_assoc n1]
      exact this
  refine (C205_run sd c' lt lt' ln (l := (true, hiddenInputs) :: l) (l' := (true, hiddenInputs) :: l') (.cons ?_ sl)
    (fun q hq => ?_) (blankGood wet) (o' := m'.blank gv') (freshClean m') ⟨st, st, fun _ _ => rfl, fun _ _ => rfl, lg.Ao⟩ ⟨o, hb, r⟩ ⟨o', hb', r'⟩).cur
  · exact ⟨rfl, rfl, rfl, fun _ _ _ _ => (mul_zero _).symm, rfl, rfl, rfl⟩
  · rcases List.mem_cons.mp hq with rfl | hq
    · exact hiddenGood nr
    · exact hl q hq

/-! ### Which sections can be divided -/

/-- A wide channel of width `w * g2` is the share `w` of a wide channel of width `g2`. -/
theorem secShare_wide {w : ℝ} (hw : 0 < w) (eps : ℝ) (ell : GP → ℝ → ℝ → ℝ) (p : GP) :
    SecShare eps ell w (.regular .wide p) (.regular .wide { p with g2 := w * p.g2 }) where
  A := fun h1 h2 => by simp only [Section.A, Geometry.area, rectA]; ring
  B := fun h1 h2 => by simp only [Section.B, topWidth, rectOpenB]
  R := fun h1 h2 => by
    simp only [Section.R, Geometry.area, perimeter, rectA, widePe, hydRadius, gt_iff_lt, mul_pos_iff_of_pos_left hw]
    rw [mul_left_comm, mul_div_mul_left _ _ hw.ne']

/-- The share `w` of a tabulated section: areas and widths multiplied by `w`. -/
theorem secShare_table {w : ℝ} (eps : ℝ) (ell : GP → ℝ → ℝ → ℝ) (n : ℕ) (zs As Bs Rs : ℕ → ℝ) :
    SecShare eps ell w (.irregular n zs As Bs Rs) (.irregular n zs (fun i => w * As i) (fun i => w * Bs i) Rs) where
  A := fun h1 h2 => by
    simp only [Section.A, interpolate]; split_ifs <;> ring
  B := fun h1 h2 => by
    simp only [Section.B, interpolate]; split_ifs <;> ring
  R := fun h1 h2 => rfl

/-- **C205 (walls).** An open rectangular channel filled to a positive depth cannot be divided in this way: the narrower
channel has a smaller hydraulic radius, so that it resists the flow more. -/
theorem C205_walls {w : ℝ} (hw : 0 < w) (h1w : w < 1) (eps : ℝ) (ell : GP → ℝ → ℝ → ℝ) (p : GP) (hb : 0 < p.g2) {h1 h2 : ℝ}
    (hd : 0 < depth h1 h2 p.g1) :
    (Section.regular .rectOpen { p with g2 := w * p.g2 }).A h1 h2 = w * (Section.regular .rectOpen p).A h1 h2 ∧
    (Section.regular .rectOpen { p with g2 := w * p.g2 }).R eps ell h1 h2 < (Section.regular .rectOpen p).R eps ell h1 h2 := by
  refine ⟨by simp only [Section.A, Geometry.area, rectA]; ring, ?_⟩
  change hydRadius (depth h1 h2 p.g1 * (w * p.g2)) (w * p.g2 + 2 * depth h1 h2 p.g1) <
    hydRadius (depth h1 h2 p.g1 * p.g2) (p.g2 + 2 * depth h1 h2 p.g1)
  unfold hydRadius
  have hwb := mul_pos hw hb
  rw [if_pos (by linarith), if_pos (by linarith), div_lt_div_iff₀ (by linarith) (by linarith)]
  have : 0 < depth h1 h2 p.g1 * p.g2 * (2 * depth h1 h2 p.g1) * (1 - w) := by
    have : 0 < 1 - w := by linarith
    positivity
  nlinarith

/-! ### Example -/

/-- A wide channel of width 3. -/
noncomputable def broadPlan : Plan := { rePlan with sec := fun _ => .regular .wide ⟨8, 3, 0, 0, 0, 0, 0⟩ }

/-- Two wide channels of widths 1 and 2 side by side. -/
noncomputable def laneModel : Model := { twinModel with n_w := 0, A_c := fun i => if i = 0 then 1 / 3 else 2 / 3 }

noncomputable def lanePlan : Plan :=
  { rePlan with Ik := fun i => 2 * i, sec := fun i => .regular .wide ⟨8, if i = 0 then 1 else 2, 0, 0, 0, 0, 0⟩ }

/-- One third and two thirds of superlink 0. -/
noncomputable def thirds : Shares reModel.ix.NK where
  n' := 2
  of := fun _ => 0
  lam := fun k => if k = 0 then 1 / 3 else 2 / 3
  of_lt := fun _ _ => by simp [reModel]
  pos := fun k _ => by split_ifs <;> norm_num
  total := fun k hk => by
    have : k = 0 := by simpa [reModel] using hk
    subst this
    simp [Finset.sum_range_succ]; norm_num

theorem broadSound : Sound reModel broadPlan := by
  refine ⟨reConsistent, ?_, ?_, ?_, ?_, ?_, ?_, ?_, ?_, ?_, ?_, ?_, ?_, ?_, ?_, ?_, ?_⟩
  all_goals first
    | (intros; simp [reModel, broadPlan, rePlan, Section.Usable, Wettable, Valid, Storage.Usable]; done)
    | norm_num [reModel, broadPlan, rePlan, Section.Usable, Wettable, Valid, Storage.Usable]

theorem laneSound : Sound laneModel lanePlan := by
  have c : laneModel.Consistent := by
    have t := twinSound.cons
    exact ⟨t.layout, t.inN, t.nodes, t.Ju, t.Jd, t.Juo, t.Jdo, fun k hk => by simp [laneModel] at hk,
      fun k hk => by simp [laneModel] at hk, t.Jup, t.Jdp⟩
  refine ⟨c, ?_, ?_, ?_, ?_, ?_, ?_, ?_, ?_, ?_, ?_, ?_, ?_, ?_, ?_, ?_, ?_⟩
  all_goals first
    | (intros; simp [laneModel, twinModel, reModel, lanePlan, rePlan, Section.Usable, Wettable, Valid, Storage.Usable]; done)
    | norm_num [laneModel, twinModel, reModel, lanePlan, rePlan]
  intro i hi
  simp [Section.Usable, Wettable, Valid]
  split_ifs <;> norm_num

theorem thirdsLanes : Lanes reModel broadPlan laneModel lanePlan thirds := by
  have e : ∀ k, k < 2 → SecShare 1 (fun _ _ _ => 1) (if k = 0 then 1 / 3 else 2 / 3) (.regular .wide ⟨8, 3, 0, 0, 0, 0, 0⟩)
      (.regular .wide ⟨8, if k = 0 then 1 else 2, 0, 0, 0, 0, 0⟩) := fun k hk => by
    have := secShare_wide (w := if k = 0 then 1 / 3 else 2 / 3) (by split_ifs <;> norm_num) 1 (fun _ _ _ => 1)
      ⟨8, 3, 0, 0, 0, 0, 0⟩
    convert this using 3
    split_ifs <;> norm_num
  constructor <;> try rfl
  all_goals intro k hk
  all_goals first
    | rfl
    | (intro j hj
       first
        | rfl
        | (have : j = 0 := by simpa [reModel] using hj
           subst this
           simp [laneModel, thirds, twinModel, reModel])
        | skip)
  · simp [laneModel, twinModel, reModel]
  · have := e k hk
    simp only [one_div] at this
    exact this

theorem laneTables : LinkTables laneModel lanePlan := by
  refine ⟨⟨?_, ?_⟩, ?_⟩ <;> simp [laneModel, twinModel, lanePlan]

theorem broadTables : LinkTables reModel broadPlan := by
  refine ⟨⟨?_, ?_⟩, ?_⟩ <;> simp [reModel, broadPlan, rePlan]

/-- The wide channel and its two lanes can be built and run through two steps, the second with raised heads; the lanes
then carry one third and two thirds of the flow at the same depths. -/
example : ∃ o o' e e', Built reModel broadPlan (inGiven 1) o ∧ Built laneModel lanePlan (inGiven 1) o' ∧
    History reModel broadPlan [(true, reInp 3), (false, reInp 4)] o e ∧
    History laneModel lanePlan [(true, reInp 3), (false, reInp 4)] o' e' ∧ e'.cur.Qu 0 = 1 / 3 * e.cur.Qu 0 ∧
    e'.cur.Qu 1 = 2 / 3 * e.cur.Qu 0 ∧ e'.cur.h 0 = e.cur.h 0 ∧ e'.cur.h 3 = e.cur.h 1 := by
  have nr : NoRound reModel broadPlan := fun a ha => by simp [reModel] at ha
  have nr' : NoRound laneModel lanePlan := fun a ha => by simp [laneModel, twinModel, reModel] at ha
  have wet : ∀ I, reModel.min_depth ≤ (inGiven 1).hJ I := fun _ => by norm_num [reModel, inGiven]
  have wet' : ∀ I, laneModel.min_depth ≤ (inGiven 1).hJ I := fun _ => by norm_num [laneModel, twinModel, reModel, inGiven]
  have key : ∀ H, GoodInputs reModel broadPlan (reInp H) := fun H =>
    ⟨(reGood H).dt_pos, fun p hp => by simp [reModel] at hp, fun a ha => by simp [reModel] at ha⟩
  have key' : ∀ H, GoodInputs laneModel lanePlan (reInp H) := fun H =>
    ⟨(reGood H).dt_pos, fun p hp => by simp [laneModel, twinModel, reModel] at hp,
      fun a ha => by simp [laneModel, twinModel, reModel] at ha⟩
  have good : ∀ q ∈ [(true, reInp 3), (false, reInp 4)], GoodInputs reModel broadPlan q.2 := by
    intro q hq
    rcases List.mem_cons.mp hq with rfl | hq
    · exact key 3
    · rw [List.mem_singleton.mp hq]; exact key 4
  have good' : ∀ q ∈ [(true, reInp 3), (false, reInp 4)], GoodInputs laneModel lanePlan q.2 := by
    intro q hq
    rcases List.mem_cons.mp hq with rfl | hq
    · exact key' 3
    · rw [List.mem_singleton.mp hq]; exact key' 4
  have same : ∀ H, LaneInputs reModel laneModel thirds (reInp H) (reInp H) := fun H =>
    ⟨rfl, rfl, rfl, fun _ _ _ _ => (mul_zero _).symm, rfl, rfl, rfl⟩
  obtain ⟨o, hb, go, -⟩ := C147_builds (gv := inGiven 1) broadSound nr wet
  obtain ⟨o', hb', go', -⟩ := C147_builds (gv := inGiven 1) laneSound nr' wet'
  obtain ⟨e, r, -⟩ := C105_every_history_succeeds broadSound _ good go
  obtain ⟨e', r', -⟩ := C105_every_history_succeeds laneSound _ good' go'
  have st := C205_built broadSound laneSound.cons broadTables laneTables nr thirdsLanes
    ⟨fun _ _ => rfl, fun _ _ _ _ => rfl, fun _ _ _ _ => (mul_zero _).symm, fun _ _ => rfl⟩ wet
    (.cons (same 3) (.cons (same 4) .nil)) good hb hb' r r'
  refine ⟨o, o', e, e', hb, hb', r, r', st.Qu 0 (by simp [thirds]), ?_, ?_, ?_⟩
  · simpa [thirds] using st.Qu 1 (by simp [thirds])
  · simpa [thirds, laneModel, twinModel, reModel] using st.h 0 (by simp [thirds]) 0 (by simp)
  · simpa [thirds, laneModel, twinModel, reModel] using st.h 1 (by simp [thirds]) 1 (by simp [reModel])

end Pipedream.Step
