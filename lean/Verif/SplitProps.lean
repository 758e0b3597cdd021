import Verif.WholeProps
import Verif.ShutProps

/-!
# C169: several controls side by side act as one with their total capacity

Every orifice, weir and pump of a network is replaced by any number of smaller ones between the same superjunctions:
orifices with a share of the discharge coefficient, weirs with a share of the length (and of the side slope), pumps
with a share of the discharge of the curve.
-/

namespace Pipedream.Step

open Pipedream.Sweep Pipedream.Link Pipedream.Superlink Pipedream.Control Pipedream.Network
open Pipedream.Geometry Pipedream.Interp

/-! ### Specification -/

/-- A weir with the share `l` of the length and the side slope. -/
def _root_.Pipedream.Control.Weir.share (w : Weir) (l : ℝ) : Weir := { w with L := l * w.L, s := l * w.s }

/-- A pump that delivers the share `l` at the same lift. -/
noncomputable def _root_.Pipedream.Control.Pump.share (p : Pump) (l : ℝ) : Pump := { p with b := p.b / l ^ p.c }

/-- How `n` controls are divided into `n'` smaller ones: number `k'` is a part of control `of k'` and carries the
share `lam k'` of it; the shares of every control are positive and add up to one. -/
structure Shares (n : ℕ) where
  n' : ℕ
  of : ℕ → ℕ
  lam : ℕ → ℝ
  of_lt : ∀ k, k < n' → of k < n
  pos : ∀ k, k < n' → 0 < lam k
  total : ∀ k, k < n → ∑ k' ∈ (Finset.range n').filter (fun k' => of k' = k), lam k' = 1

variable {m : Model} {P : Plan} {inp : Inputs}

/-- The network with divided controls. -/
noncomputable def Model.divide (m : Model) (o : Shares m.n_o) (w : Shares m.n_w) (p : Shares m.n_p) : Model :=
  { m with
    n_o := o.n'
    Juo := fun k => m.Juo (o.of k)
    Jdo := fun k => m.Jdo (o.of k)
    orifice := fun k => m.orifice (o.of k)
    Co := fun k => o.lam k * m.Co (o.of k)
    n_w := w.n'
    Juw := fun k => m.Juw (w.of k)
    Jdw := fun k => m.Jdw (w.of k)
    weir := fun k => (m.weir (w.of k)).share (w.lam k)
    n_p := p.n'
    Jup := fun k => m.Jup (p.of k)
    Jdp := fun k => m.Jdp (p.of k)
    pump := fun k => (m.pump (p.of k)).share (p.lam k) }

/-- Sections of the divided orifices. -/
def Plan.divide (P : Plan) {n : ℕ} (o : Shares n) : Plan :=
  { P with oShape := fun k => P.oShape (o.of k), oGP := fun k => P.oGP (o.of k) }

/-- The parts of a control get its signal. -/
def Inputs.divide (inp : Inputs) {a b c : ℕ} (o : Shares a) (w : Shares b) (p : Shares c) : Inputs :=
  { inp with u_o := fun k => inp.u_o (o.of k), u_w := fun k => inp.u_w (w.of k), u_p := fun k => inp.u_p (p.of k) }

/-- `s'` is the state `s` with the flow of every control divided among its parts. -/
structure Divided {a b c : ℕ} (o : Shares a) (w : Shares b) (p : Shares c) (s s' : Hyd) : Prop where
  H : s'.H = s.H
  h : s'.h = s.h
  Q : s'.Q = s.Q
  Qu : s'.Qu = s.Qu
  Qd : s'.Qd = s.Qd
  Qo : ∀ k, k < o.n' → s'.Qo k = o.lam k * s.Qo (o.of k)
  Qw : ∀ k, k < w.n' → s'.Qw k = w.lam k * s.Qw (w.of k)
  Qp : ∀ k, k < p.n' → s'.Qp k = p.lam k * s.Qp (p.of k)

/-- Objects in divided states, with the same sweep arrays, end switches and orifice areas. -/
structure DividedObj {a b c : ℕ} (o : Shares a) (w : Shares b) (p : Shares c) (x x' : Obj) : Prop where
  saved : Divided o w p x.saved x'.saved
  cur : Divided o w p x.cur x'.cur
  fw : x'.wk.f = x.wk.f
  bw : x'.wk.b = x.wk.b
  thu : x'.hid.thu = x.hid.thu
  thd : x'.hid.thd = x.hid.thd
  Ao : ∀ k, k < o.n' → x'.hid.Ao k = x.hid.Ao (o.of k)

/-- No orifice is held back by the water left in its source, and the pumps work within their curves (elsewhere the code
returns nan). `o1` is the object after a call with inputs `inp`. -/
structure Plain (m : Model) (inp : Inputs) (o1 : Obj) : Prop where
  orifice : ∀ k, k < m.n_o → o1.cur.Qo k =
    orificeRaw m.g (o1.hid.Ao k) (m.Co k) (o1.cur.H (m.Juo k)) (o1.cur.H (m.Jdo k)) (inp.u_o k) (m.orifice k)
  pump : ∀ k, k < m.n_p → (m.pump k).c ≠ 0 ∧
    0 ≤ inp.u_p k / (m.pump k).b * ((m.pump k).a - pumpHead (o1.cur.H (m.Jup k)) (o1.cur.H (m.Jdp k)) (m.pump k))

/-! ### One control -/

theorem orificeCoef_share (γ Hu Hd u l : ℝ) (o : Orifice) (old old' : Lin) (a b : ℝ) :
    (orificeCoef old (l * γ) Hu Hd u o).eval a b = l * (orificeCoef old' γ Hu Hd u o).eval a b := by
  rw [C11_orifice_no_stale old ⟨0, 0, 0⟩, C11_orifice_no_stale old' ⟨0, 0, 0⟩]
  simp only [orificeCoef, Lin.eval]
  split_ifs <;> ring

theorem gammaO_share {l : ℝ} (hl : 0 < l) (Q Ao Co g : ℝ) : gammaO (l * Q) Ao (l * Co) g = l * gammaO Q Ao Co g := by
  simp only [gammaO, safeDivide_eq]
  rw [abs_mul, abs_of_pos hl]
  rcases eq_or_ne |Q| 0 with h | h
  · simp [h]
  · field_simp

theorem orificeLin_share {l : ℝ} (hl : 0 < l) (old old' : Lin) (g Q Ao Co Hu Hd u : ℝ) (o : Orifice) (a b : ℝ) :
    (orificeLin old g (l * Q) Ao (l * Co) Hu Hd u o).eval a b = l * (orificeLin old' g Q Ao Co Hu Hd u o).eval a b := by
  rw [orificeLin, gammaO_share hl]
  exact orificeCoef_share _ _ _ _ _ _ _ _ _ _

theorem orificeRaw_share {l : ℝ} (hl : 0 < l) (g Ao Co Hu Hd u : ℝ) (o : Orifice) :
    orificeRaw g Ao (l * Co) Hu Hd u o = l * orificeRaw g Ao Co Hu Hd u o := by
  have e := orificeCoef_share (2 * g * Co ^ 2 * Ao ^ 2) Hu Hd u (l ^ 2) o ⟨0, 0, 0⟩ ⟨0, 0, 0⟩ Hu Hd
  simp only [Lin.eval] at e
  simp only [orificeRaw]
  rw [show 2 * g * (l * Co) ^ 2 * Ao ^ 2 = l ^ 2 * (2 * g * Co ^ 2 * Ao ^ 2) by ring, e, abs_mul,
    abs_of_nonneg (sq_nonneg l), Real.sqrt_mul (sq_nonneg l), Real.sqrt_sq hl.le]
  ring

theorem npSign_mul_abs (x : ℝ) : npSign x * |x| = x := by
  unfold npSign
  split_ifs with h1 h2
  · rw [abs_of_pos h1, one_mul]
  · rw [abs_of_neg h2]; ring
  · have : x = 0 := le_antisymm (not_lt.mp h1) (not_lt.mp h2)
    simp [this]

/-- A flow that the volume limit leaves alone. -/
theorem orificeLimit_free {Q Hu Hd Vu Vd dt : ℝ} (h : orificeLimit Q Hu Hd Vu Vd dt = Q) {l : ℝ} (hl : 0 < l) (hl1 : l ≤ 1) :
    orificeLimit (l * Q) Hu Hd Vu Vd dt = l * Q := by
  unfold orificeLimit at h ⊢
  rcases eq_or_ne Q 0 with h0 | h0
  · subst h0; simp [npSign]
  · set M := (if Hu > Hd then Vu else Vd) / dt
    have s0 : npSign Q ≠ 0 := by
      unfold npSign
      rcases lt_or_gt_of_ne h0 with h1 | h1
      · rw [if_neg (not_lt.mpr h1.le), if_pos h1]; norm_num
      · rw [if_pos h1]; norm_num
    have e : min |Q| M = |Q| := by
      have := npSign_mul_abs Q
      exact mul_left_cancel₀ s0 (h.trans this.symm)
    have : |Q| ≤ M := min_eq_left_iff.mp e
    have h2 : |l * Q| ≤ M := by
      rw [abs_mul, abs_of_pos hl]
      exact le_trans (mul_le_of_le_one_left (abs_nonneg _) hl1) this
    simp only
    rw [min_eq_left h2, npSign_mul_abs]

theorem weirConv_share (w : Weir) (l H : ℝ) : weirConv (w.share l) H = l ^ 2 * weirConv w H := by
  simp only [weirConv, Weir.share]; ring

theorem gammaW_share {l : ℝ} (hl : 0 < l) (w : Weir) (Q H : ℝ) : gammaW (l * Q) H (w.share l) = l * gammaW Q H w := by
  simp only [gammaW, safeDivide_eq, weirConv_share]
  rw [abs_mul, abs_of_pos hl]
  rcases eq_or_ne |Q| 0 with h | h
  · simp [h]
  · field_simp

/-- The weir's equation with the coefficient `gamma_w` singled out. -/
noncomputable def weirForm (γ Hu Hd u : ℝ) (w : Weir) (a b : ℝ) : ℝ :=
  let ω := omega Hu Hd
  let cond_0 : Prop := ω * Hu + (1 - ω) * Hd > w.z_w + w.z_inv + (1 - u) * w.y_max
  let cond_1 : Prop := (1 - ω) * Hu + ω * Hd > w.z_w + w.z_inv + (1 - u) * w.y_max
  have : Decidable cond_0 := Classical.dec _
  have : Decidable cond_1 := Classical.dec _
  let r : Lin := if cond_0 ∧ cond_1 then ⟨γ, -γ, 0⟩ else ⟨0, 0, 0⟩
  let r : Lin := if cond_0 ∧ ¬ cond_1 then
    ⟨γ * ω * sgn Hu Hd, γ * (1 - ω) * sgn Hu Hd,
      γ * sgn Hu Hd * (-w.z_inv - w.z_w - (1 - u) * w.y_max)⟩ else r
  (if ¬ cond_0 then ⟨0, 0, 0⟩ else r : Lin).eval a b

theorem weirForm_smul (l γ Hu Hd u : ℝ) (w : Weir) (a b : ℝ) :
    weirForm (l * γ) Hu Hd u w a b = l * weirForm γ Hu Hd u w a b := by
  simp only [weirForm, Lin.eval]
  split_ifs <;> ring

theorem weirLin_share {l : ℝ} (hl : 0 < l) (old old' : Lin) (Q Hu Hd u : ℝ) (w : Weir) (a b : ℝ) :
    (weirLin old (l * Q) Hu Hd u (w.share l)).eval a b = l * (weirLin old' Q Hu Hd u w).eval a b := by
  rw [C11_weir_no_stale old ⟨0, 0, 0⟩, C11_weir_no_stale old' ⟨0, 0, 0⟩]
  have e1 : (weirLin ⟨0, 0, 0⟩ (l * Q) Hu Hd u (w.share l)).eval a b =
      weirForm (gammaW (l * Q) (weirHead Hu Hd u w) (w.share l)) Hu Hd u w a b := rfl
  have e2 : (weirLin ⟨0, 0, 0⟩ Q Hu Hd u w).eval a b = weirForm (gammaW Q (weirHead Hu Hd u w) w) Hu Hd u w a b := rfl
  rw [e1, e2, gammaW_share hl, weirForm_smul]

theorem weirFlow_share {l : ℝ} (hl : 0 < l) (Hu Hd u : ℝ) (w : Weir) :
    weirFlow Hu Hd u (w.share l) = l * weirFlow Hu Hd u w := by
  have hh : weirHead Hu Hd u (w.share l) = weirHead Hu Hd u w := rfl
  simp only [weirFlow]
  rw [hh, weirConv_share, mul_assoc, Real.sqrt_mul (sq_nonneg l), Real.sqrt_sq hl.le]
  ring

theorem gammaP_share {l : ℝ} (hl : 0 < l) (p : Pump) (Q u : ℝ) : gammaP (l * Q) u (p.share l) = l * gammaP Q u p := by
  simp only [gammaP, safeDivide_eq, Pump.share]
  rw [abs_mul, abs_of_pos hl, Real.mul_rpow hl.le (abs_nonneg _), Real.rpow_sub hl, Real.rpow_one]
  have h1 : l ^ p.c ≠ 0 := (Real.rpow_pos_of_pos hl _).ne'
  rw [show p.b / l ^ p.c * (l ^ p.c / l * |Q| ^ (p.c - 1)) = p.b * |Q| ^ (p.c - 1) / l by field_simp, div_div_eq_mul_div]
  ring

/-- The pump's equation with the coefficient `gamma_p` singled out. -/
noncomputable def pumpForm (γ Hu Hd : ℝ) (p : Pump) (a b : ℝ) : ℝ :=
  let cond_0 : Prop := Hu > p.z_inv + p.z_p
  let cond_1 : Prop := Hd - Hu > p.dHmin ∧ Hd - Hu < p.dHmax
  have : Decidable cond_0 := Classical.dec _
  have : Decidable cond_1 := Classical.dec _
  let r : Lin := if cond_0 ∧ cond_1 then ⟨γ, -γ, γ * p.a⟩ else ⟨0, 0, 0⟩
  let r : Lin := if cond_0 ∧ ¬ cond_1 then ⟨0, 0, γ * (p.a - pumpHead Hu Hd p)⟩ else r
  (if ¬ cond_0 then ⟨0, 0, 0⟩ else r : Lin).eval a b

theorem pumpForm_smul (l γ Hu Hd : ℝ) (p : Pump) (a b : ℝ) : pumpForm (l * γ) Hu Hd p a b = l * pumpForm γ Hu Hd p a b := by
  simp only [pumpForm, Lin.eval]
  split_ifs <;> ring

theorem pumpLin_share {l : ℝ} (hl : 0 < l) (old old' : Lin) (Q Hu Hd u : ℝ) (p : Pump) (a b : ℝ) :
    (pumpLin old (l * Q) Hu Hd u (p.share l)).eval a b = l * (pumpLin old' Q Hu Hd u p).eval a b := by
  rw [C11_pump_no_stale old ⟨0, 0, 0⟩, C11_pump_no_stale old' ⟨0, 0, 0⟩]
  have e1 : (pumpLin ⟨0, 0, 0⟩ (l * Q) Hu Hd u (p.share l)).eval a b = pumpForm (gammaP (l * Q) u (p.share l)) Hu Hd p a b := rfl
  have e2 : (pumpLin ⟨0, 0, 0⟩ Q Hu Hd u p).eval a b = pumpForm (gammaP Q u p) Hu Hd p a b := rfl
  rw [e1, e2, gammaP_share hl, pumpForm_smul]

theorem pumpFlow_share {l : ℝ} (hl : 0 < l) (Hu Hd u : ℝ) (p : Pump) (hc : p.c ≠ 0)
    (h0 : 0 ≤ u / p.b * (p.a - pumpHead Hu Hd p)) :
    pumpFlow Hu Hd u (p.share l) = l * pumpFlow Hu Hd u p := by
  have e : pumpFlow Hu Hd u (p.share l) =
      if Hu > p.z_inv + p.z_p then (u / (p.b / l ^ p.c) * (p.a - pumpHead Hu Hd p)) ^ (1 / p.c) else 0 := rfl
  rw [e, pumpFlow]
  by_cases h : Hu > p.z_inv + p.z_p
  · rw [if_pos h, if_pos h]
    have h1 : (0 : ℝ) < l ^ p.c := Real.rpow_pos_of_pos hl _
    rw [show u / (p.b / l ^ p.c) * (p.a - pumpHead Hu Hd p) = l ^ p.c * (u / p.b * (p.a - pumpHead Hu Hd p)) by
      rw [div_div_eq_mul_div]; ring, Real.mul_rpow h1.le h0, ← Real.rpow_mul hl.le, mul_one_div_cancel hc, Real.rpow_one]
  · rw [if_neg h, if_neg h, mul_zero]

/-! ### Inflow from controls -/

theorem Shares.le_one {n : ℕ} (sh : Shares n) {k : ℕ} (hk : k < sh.n') : sh.lam k ≤ 1 := by
  rw [← sh.total _ (sh.of_lt k hk)]
  refine Finset.single_le_sum (f := sh.lam) (fun i hi => ?_) (by simp [hk])
  exact (sh.pos i (Finset.mem_range.mp (Finset.mem_of_mem_filter i hi))).le

theorem inflow_share {C C' : Ctrls ℝ} (sh : Shares C.n) (hn : C'.n = sh.n') (Ju : ∀ k, C'.Ju k = C.Ju (sh.of k))
    (Jd : ∀ k, C'.Jd k = C.Jd (sh.of k)) (H : ℕ → ℝ)
    (e : ∀ k, k < sh.n' → C'.Q H k = sh.lam k * C.Q H (sh.of k)) (i : ℕ) : C'.inflow H i = C.inflow H i := by
  unfold Ctrls.inflow
  rw [hn]
  have hm : ∀ k' ∈ Finset.range sh.n', sh.of k' ∈ Finset.range C.n := fun k' hk' =>
    Finset.mem_range.mpr (sh.of_lt k' (Finset.mem_range.mp hk'))
  rw [← Finset.sum_fiberwise_of_maps_to hm]
  refine Finset.sum_congr rfl fun k hk => ?_
  have : ∀ k' ∈ (Finset.range sh.n').filter (fun k' => sh.of k' = k),
      ((if C'.Jd k' = i then C'.Q H k' else 0) - (if C'.Ju k' = i then C'.Q H k' else 0)) =
      sh.lam k' * ((if C.Jd k = i then C.Q H k else 0) - (if C.Ju k = i then C.Q H k else 0)) := fun k' hk' => by
    obtain ⟨h1, h2⟩ := Finset.mem_filter.mp hk'
    rw [e k' (Finset.mem_range.mp h1), Jd, Ju, h2]
    split_ifs <;> ring
  rw [Finset.sum_congr rfl this, ← Finset.sum_mul, sh.total k (Finset.mem_range.mp hk), one_mul]

/-! ### One call -/

variable {so : Shares m.n_o} {sw : Shares m.n_w} {sp : Shares m.n_p}

theorem divideConsistent (cs : m.Consistent) : (m.divide so sw sp).Consistent :=
  ⟨cs.layout, cs.inN, cs.nodes, cs.Ju, cs.Jd, fun k hk => cs.Juo _ (so.of_lt k hk), fun k hk => cs.Jdo _ (so.of_lt k hk),
    fun k hk => cs.Juw _ (sw.of_lt k hk), fun k hk => cs.Jdw _ (sw.of_lt k hk), fun k hk => cs.Jup _ (sp.of_lt k hk),
    fun k hk => cs.Jdp _ (sp.of_lt k hk)⟩

/-- The head equations of the two networks have the same solutions. -/
theorem solves_divide (cs : m.Consistent) {G G' : Geo} {wk wk' : Work} {prev cur prev' cur' : Hyd} {co : Coef ℝ} {x : ℕ → ℝ}
    (cw : CleanWork m wk.mats) (cw' : CleanWork (m.divide so sw sp) wk'.mats)
    (hN : ((m.divide so sw sp).net G' (inp.divide so sw sp) wk' cur' co).links = (m.net G inp wk cur co).links)
    (hAs : G'.As = G.As) (hp : prev'.H = prev.H) (hcur : cur'.H = cur.H)
    (eo : ∀ k, k < so.n' → ∀ u v, ((m.divide so sw sp).oLin G' (inp.divide so sw sp) wk' cur' k).eval u v =
      so.lam k * (m.oLin G inp wk cur (so.of k)).eval u v)
    (ew : ∀ k, k < sw.n' → ∀ u v, ((m.divide so sw sp).wLin (inp.divide so sw sp) wk' cur' k).eval u v =
      sw.lam k * (m.wLin inp wk cur (sw.of k)).eval u v)
    (ep : ∀ k, k < sp.n' → ∀ u v, ((m.divide so sw sp).pLin (inp.divide so sw sp) wk' cur' k).eval u v =
      sp.lam k * (m.pLin inp wk cur (sp.of k)).eval u v) :
    Solves m.M ((m.divide so sw sp).lhs G' (inp.divide so sw sp) wk' cur' co)
        ((m.divide so sw sp).rhs G' (inp.divide so sw sp) wk' prev' cur' co) x ↔
      Solves m.M (m.lhs G inp wk cur co) (m.rhs G inp wk prev cur co) x := by
  have l := solves_iff (m.net G inp wk cur co) inp.dt wk.mats cw.mats (wired cs) prev.H inp.Q_in
    (inp.H_bc.getD cur.H) x
  have l' := solves_iff ((m.divide so sw sp).net G' (inp.divide so sw sp) wk' cur' co) inp.dt wk'.mats cw'.mats
    (wired (divideConsistent cs)) prev'.H inp.Q_in (inp.H_bc.getD cur'.H) x
  refine l'.trans (Iff.trans ?_ l.symm)
  have io : ∀ i, ((m.divide so sw sp).net G' (inp.divide so sw sp) wk' cur' co).orifices.inflow x i =
      (m.net G inp wk cur co).orifices.inflow x i :=
    inflow_share (C := (m.net G inp wk cur co).orifices)
      (C' := ((m.divide so sw sp).net G' (inp.divide so sw sp) wk' cur' co).orifices) so rfl (fun _ => rfl)
      (fun _ => rfl) x (fun k hk => eo k hk _ _)
  have iw : ∀ i, ((m.divide so sw sp).net G' (inp.divide so sw sp) wk' cur' co).weirs.inflow x i =
      (m.net G inp wk cur co).weirs.inflow x i :=
    inflow_share (C := (m.net G inp wk cur co).weirs)
      (C' := ((m.divide so sw sp).net G' (inp.divide so sw sp) wk' cur' co).weirs) sw rfl (fun _ => rfl)
      (fun _ => rfl) x (fun k hk => ew k hk _ _)
  have ip : ∀ i, ((m.divide so sw sp).net G' (inp.divide so sw sp) wk' cur' co).pumps.inflow x i =
      (m.net G inp wk cur co).pumps.inflow x i :=
    inflow_share (C := (m.net G inp wk cur co).pumps)
      (C' := ((m.divide so sw sp).net G' (inp.divide so sw sp) wk' cur' co).pumps) sp rfl (fun _ => rfl)
      (fun _ => rfl) x (fun k hk => ep k hk _ _)
  refine forall_congr' fun i => forall_congr' fun hi => ?_
  refine and_congr ?_ ?_
  · rw [hcur]; exact Iff.rfl
  · refine imp_congr Iff.rfl ?_
    unfold Network.Balanced
    rw [io, iw, ip, hN, hp]
    simp only [Model.net, hAs]

/-- What the two networks compute in a call from divided objects. -/
theorem pass_divide (cs : m.Consistent) {o o' : Obj}
    (cw : CleanWork m o.wk.mats) (cw' : CleanWork (m.divide so sw sp) o'.wk.mats) (d : DividedObj so sw sp o o') (first : Bool)
    {Ao Ao' : ℕ → ℝ} (eA : ∀ k, k < so.n' → Ao' k = Ao (so.of k)) (co : Coef ℝ) (x : ℕ → ℝ) :
    (Pass (m.divide so sw sp) ((m.divide so sw sp).geoOf (P.divide so) o'.hid Ao' o'.cur) (inp.divide so sw sp) o'.wk
        (if first then o'.cur else o'.saved) o'.cur co x ↔
      Pass m (m.geoOf P o.hid Ao o.cur) inp o.wk (if first then o.cur else o.saved) o.cur co x) ∧
    (Plain m inp ⟨if first then o.cur else o.saved, m.advance (m.geoOf P o.hid Ao o.cur) inp o.wk o.cur co x,
        m.work (m.geoOf P o.hid Ao o.cur) inp o.wk o.cur co, m.nextHidden Ao o.cur⟩ →
    DividedObj so sw sp
      ⟨if first then o.cur else o.saved, m.advance (m.geoOf P o.hid Ao o.cur) inp o.wk o.cur co x,
        m.work (m.geoOf P o.hid Ao o.cur) inp o.wk o.cur co, m.nextHidden Ao o.cur⟩
      ⟨if first then o'.cur else o'.saved,
        (m.divide so sw sp).advance ((m.divide so sw sp).geoOf (P.divide so) o'.hid Ao' o'.cur) (inp.divide so sw sp) o'.wk
          o'.cur co x,
        (m.divide so sw sp).work ((m.divide so sw sp).geoOf (P.divide so) o'.hid Ao' o'.cur) (inp.divide so sw sp) o'.wk
          o'.cur co,
        (m.divide so sw sp).nextHidden Ao' o'.cur⟩) := by
  obtain ⟨⟨sH, sh, sQ, sQu, sQd, sQo, sQw, sQp⟩, ⟨cH, ch, cQ, cQu, cQd, cQo, cQw, cQp⟩, ⟨mats, wf, wb, lo, lw, lp⟩,
    ⟨thu, thd, oA⟩⟩ := o
  obtain ⟨⟨sH', sh', sQ', sQu', sQd', sQo', sQw', sQp'⟩, ⟨cH', ch', cQ', cQu', cQd', cQo', cQw', cQp'⟩,
    ⟨mats', wf', wb', lo', lw', lp'⟩, ⟨thu', thd', oA'⟩⟩ := o'
  obtain ⟨⟨e1, e2, e3, e4, e5, e6, e7, e8⟩, ⟨f1, f2, f3, f4, f5, f6, f7, f8⟩, g1, g2, k1, k2, k3⟩ := d
  simp only at e1 e2 e3 e4 e5 e6 e7 e8 f1 f2 f3 f4 f5 f6 f7 f8 g1 g2 k1 k2 k3
  subst e1 e2 e3 e4 e5 f1 f2 f3 f4 f5 g1 g2 k1 k2
  have aw : ∀ k, k < so.n' → upTo so.n' Ao' k = upTo m.n_o Ao (so.of k) := fun k hk => by
    simp only [upTo, hk, so.of_lt k hk, if_true]; exact eA k hk
  refine ⟨?_, fun pl => ?_⟩
  · have hs := solves_divide (inp := inp) (so := so) (sw := sw) (sp := sp) (x := x) (co := co)
        (G := m.geoOf P ⟨thu', thd', oA⟩ Ao ⟨cH', ch', cQ', cQu', cQd', cQo, cQw, cQp⟩)
        (G' := (m.divide so sw sp).geoOf (P.divide so) ⟨thu', thd', oA'⟩ Ao' ⟨cH', ch', cQ', cQu', cQd', cQo', cQw', cQp'⟩)
        (cur := ⟨cH', ch', cQ', cQu', cQd', cQo, cQw, cQp⟩) (cur' := ⟨cH', ch', cQ', cQu', cQd', cQo', cQw', cQp'⟩)
        (prev := if first then ⟨cH', ch', cQ', cQu', cQd', cQo, cQw, cQp⟩ else
        ⟨sH', sh', sQ', sQu', sQd', sQo, sQw, sQp⟩) (prev' := if first then ⟨cH', ch', cQ', cQu', cQd', cQo', cQw', cQp'⟩ else
        ⟨sH', sh', sQ', sQu', sQd', sQo', sQw', sQp'⟩) cs cw cw' (by rfl) (by rfl) (by cases first <;> rfl) (by rfl)
        (fun k hk u v => by
          simp only [Model.oLin, Model.divide, Model.geoOf, Inputs.divide]
          rw [aw k hk, f6 k hk]
          exact orificeLin_share (so.pos k hk) _ _ _ _ _ _ _ _ _ _ _ _)
        (fun k hk u v => by
          simp only [Model.wLin, Model.divide, Inputs.divide]
          rw [f7 k hk]
          exact weirLin_share (sw.pos k hk) _ _ _ _ _ _ _ _ _)
        (fun k hk u v => by
          simp only [Model.pLin, Model.divide, Inputs.divide]
          rw [f8 k hk]
          exact pumpLin_share (sp.pos k hk) _ _ _ _ _ _ _ _ _)
    refine ⟨fun p => ⟨?_, hs.1 p.solve⟩, fun p => ⟨?_, hs.2 p.solve⟩⟩
    · have := p.coefs
      cases first <;> exact this
    · have := p.coefs
      cases first <;> exact this
  · refine ⟨?_, ⟨rfl, rfl, rfl, rfl, rfl, fun k hk => ?_, fun k hk => ?_, fun k hk => ?_⟩, rfl, rfl, rfl, rfl, aw⟩
    · cases first
      · exact ⟨rfl, rfl, rfl, rfl, rfl, e6, e7, e8⟩
      · exact ⟨rfl, rfl, rfl, rfl, rfl, f6, f7, f8⟩
    · have pk := pl.orifice _ (so.of_lt k hk)
      simp only [Model.advance, Model.geoOf, Model.nextHidden, Model.divide, Inputs.divide, Plan.divide, orificeFlow] at pk ⊢
      rw [aw k hk, orificeRaw_share (so.pos k hk), orificeLimit_free pk (so.pos k hk) (so.le_one hk), pk]
    · exact weirFlow_share (sw.pos k hk) _ _ _ _
    · obtain ⟨h1, h2⟩ := pl.pump _ (sp.of_lt k hk)
      exact pumpFlow_share (sp.pos k hk) _ _ _ _ h1 h2

/-- Every control has a part. -/
theorem Shares.part {n : ℕ} (sh : Shares n) {k : ℕ} (hk : k < n) : ∃ k', k' < sh.n' ∧ sh.of k' = k := by
  by_contra h
  push Not at h
  have := sh.total k hk
  rw [Finset.filter_false_of_mem (fun k' hk' => h k' (Finset.mem_range.mp hk')), Finset.sum_empty] at this
  norm_num at this

/-- **C169 (one call).** From an object and its divided counterpart, every call the network can make is matched by a
call of the network with divided controls, and conversely. If the call is plain — no orifice held back by the water
left in its source, pumps within their curves — the heads, the depths and the flows in the pipes are the same, and the
flow of every control is divided among its parts in proportion to their shares. -/
theorem C169_call (cs : m.Consistent) {o o' : Obj} (cw : CleanWork m o.wk.mats)
    (cw' : CleanWork (m.divide so sw sp) o'.wk.mats) (d : DividedObj so sw sp o o') (first : Bool) :
    (∀ o1, Calls1 m P first inp o o1 → ∃ o1',
      Calls1 (m.divide so sw sp) (P.divide so) first (inp.divide so sw sp) o' o1' ∧
        (Plain m inp o1 → DividedObj so sw sp o1 o1')) ∧
    (∀ o1', Calls1 (m.divide so sw sp) (P.divide so) first (inp.divide so sw sp) o' o1' → ∃ o1,
      Calls1 m P first inp o o1 ∧ (Plain m inp o1 → DividedObj so sw sp o1 o1')) := by
  have dep : ∀ k, (m.divide so sw sp).orificeDepth o'.cur k = m.orificeDepth o.cur (so.of k) := fun k => by
    simp only [Model.orificeDepth, Model.divide, d.cur.H]
  refine ⟨?_, ?_⟩
  · rintro o1 ⟨Ao, co, x, hA, p, rfl⟩
    obtain ⟨h1, h2⟩ := pass_divide (P := P) (inp := inp) cs cw cw' d first (Ao := Ao) (Ao' := fun k => Ao (so.of k))
      (fun _ _ => rfl) co x
    refine ⟨_, ⟨_, co, x, fun k hk => ?_, h1.2 p, rfl⟩, h2⟩
    rw [dep, d.Ao k hk]
    exact hA _ (so.of_lt k hk)
  · rintro o1' ⟨Ao', co, x, hA, p, rfl⟩
    have hA2 : ∀ k, k < so.n' → orificeArea (o.hid.Ao (so.of k)) (P.oShape (so.of k)) (P.oGP (so.of k))
        (m.orificeDepth o.cur (so.of k)) (inp.u_o (so.of k)) = .ok (Ao' k) := fun k hk => by
      have := hA k hk
      rw [dep, d.Ao k hk] at this
      exact this
    have : ∀ k, ∃ A, k < m.n_o → orificeArea (o.hid.Ao k) (P.oShape k) (P.oGP k) (m.orificeDepth o.cur k) (inp.u_o k) = .ok A :=
      fun k => by
        by_cases hk : k < m.n_o
        · obtain ⟨k', hk', e⟩ := so.part hk
          exact ⟨Ao' k', fun _ => e ▸ hA2 k' hk'⟩
        · exact ⟨0, fun h => absurd h hk⟩
    choose Ao hAo using this
    obtain ⟨h1, h2⟩ := pass_divide (P := P) (inp := inp) cs cw cw' d first (Ao := Ao) (Ao' := Ao')
      (fun k hk => by
        have e1 := hAo _ (so.of_lt k hk)
        rw [hA2 k hk] at e1
        injection e1) co x
    exact ⟨_, ⟨Ao, co, x, fun k hk => hAo k hk, h1.1 p, rfl⟩, h2⟩

/-- **C169 (every run).** Through every sequence of plain calls the network with divided controls computes the same
heads, depths and flows in the pipes, and the parts of every control carry together what the control carries. -/
theorem C169_run (cs : m.Consistent) (l : List (Bool × Inputs)) {o o' o1 : Obj}
    (pl : ∀ pre q post o2, l = pre ++ q :: post → History m P (pre ++ [q]) o o2 → Plain m q.2 o2)
    (cw : CleanWork m o.wk.mats) (cw' : CleanWork (m.divide so sw sp) o'.wk.mats) (d : DividedObj so sw sp o o')
    (h : History m P l o o1) :
    ∃ o1', History (m.divide so sw sp) (P.divide so) (l.map fun q => (q.1, q.2.divide so sw sp)) o' o1' ∧
      DividedObj so sw sp o1 o1' := by
  induction l generalizing o o' with
  | nil => obtain rfl := h; exact ⟨o', rfl, d⟩
  | cons q rest ih =>
    obtain ⟨o2, h1, h2⟩ := h
    obtain ⟨o2', h1', d2⟩ := (C169_call cs cw cw' d q.1).1 _ h1
    obtain ⟨o1', h2', d3⟩ := ih
      (fun pre q' post o3 e hh => pl (q :: pre) q' post o3 (by rw [e]; rfl) ⟨o2, h1, hh⟩)
      (Calls1.clean cw h1) (Calls1.clean cw' h1') (d2 (pl [] q rest o2 rfl ⟨o2, h1, rfl⟩)) h2
    exact ⟨o1', ⟨o2', h1', h2'⟩, d3⟩

/-- **C169 (totals).** In divided states the flows of the parts of a control add up to the flow of the control. -/
theorem C169_total {s s' : Hyd} (d : Divided so sw sp s s') :
    (∀ k, k < m.n_o → ∑ k' ∈ (Finset.range so.n').filter (fun k' => so.of k' = k), s'.Qo k' = s.Qo k) ∧
    (∀ k, k < m.n_w → ∑ k' ∈ (Finset.range sw.n').filter (fun k' => sw.of k' = k), s'.Qw k' = s.Qw k) ∧
    (∀ k, k < m.n_p → ∑ k' ∈ (Finset.range sp.n').filter (fun k' => sp.of k' = k), s'.Qp k' = s.Qp k) := by
  have key : ∀ {n : ℕ} (sh : Shares n) (Q' Q : ℕ → ℝ), (∀ k, k < sh.n' → Q' k = sh.lam k * Q (sh.of k)) →
      ∀ k, k < n → ∑ k' ∈ (Finset.range sh.n').filter (fun k' => sh.of k' = k), Q' k' = Q k := by
    intro n sh Q' Q e k hk
    rw [Finset.sum_congr rfl (g := fun k' => sh.lam k' * Q k), ← Finset.sum_mul, sh.total k hk, one_mul]
    intro k' hk'
    obtain ⟨h1, h2⟩ := Finset.mem_filter.mp hk'
    rw [e k' (Finset.mem_range.mp h1), h2]
  exact ⟨key so _ _ d.Qo, key sw _ _ d.Qw, key sp _ _ d.Qp⟩

/-! ### Where it fails -/

/-- **C169 is false where the volume limit binds.** The flow of an orifice is cut to the volume in its source divided by
the step size, for every orifice by itself. If the limit binds, two parts with any shares draw together strictly more
than the whole orifice, hence more than the source holds. -/
theorem C169_limited {g Ao Co Hu Hd u Vu Vd dt l : ℝ} {or : Orifice} (hl : 0 < l) (hl1 : l < 1)
    (h0 : 0 < (if Hu > Hd then Vu else Vd) / dt)
    (h1 : (if Hu > Hd then Vu else Vd) / dt < |orificeRaw g Ao Co Hu Hd u or|) :
    |orificeFlow g Ao Co Hu Hd u Vu Vd dt or| = (if Hu > Hd then Vu else Vd) / dt ∧
      (if Hu > Hd then Vu else Vd) / dt <
        |orificeFlow g Ao (l * Co) Hu Hd u Vu Vd dt or + orificeFlow g Ao ((1 - l) * Co) Hu Hd u Vu Vd dt or| := by
  have hl' : 0 < 1 - l := by linarith
  simp only [orificeFlow, orificeLimit]
  rw [orificeRaw_share hl, orificeRaw_share hl']
  generalize orificeRaw g Ao Co Hu Hd u or = Q at *
  generalize (if Hu > Hd then Vu else Vd) / dt = V at *
  have hQ : Q ≠ 0 := by rintro rfl; simp at h1; linarith
  have sg : ∀ c : ℝ, 0 < c → npSign (c * Q) = npSign Q := fun c hc => by
    have hn : c * Q < 0 ↔ Q < 0 := by
      rw [← not_iff_not, not_lt, not_lt, mul_nonneg_iff_of_pos_left hc]
    unfold npSign
    simp only [gt_iff_lt, mul_pos_iff_of_pos_left hc, hn]
  have s1 : |npSign Q| = 1 := by
    unfold npSign
    rcases lt_or_gt_of_ne hQ with h | h
    · rw [if_neg (not_lt.mpr h.le), if_pos h]; norm_num
    · rw [if_pos h]; norm_num
  have a0 : 0 < |Q| := abs_pos.mpr hQ
  rw [sg l hl, sg _ hl', ← mul_add, abs_mul, abs_mul, s1, one_mul, one_mul, min_eq_right h1.le, abs_of_pos h0,
    abs_mul, abs_mul, abs_of_pos hl, abs_of_pos hl']
  refine ⟨rfl, lt_of_lt_of_le ?_ (le_abs_self _)⟩
  have p1 : 0 < min (l * |Q|) V := lt_min (by positivity) h0
  have p2 : 0 < min ((1 - l) * |Q|) V := lt_min (by positivity) h0
  rcases le_total (l * |Q|) V with c1 | c1
  · rcases le_total ((1 - l) * |Q|) V with c2 | c2
    · rw [min_eq_left c1, min_eq_left c2]; linarith
    · rw [min_eq_right c2]; linarith
  · rw [min_eq_right c1]; linarith

/-! ### Non-vacuity -/

/-- The network of `RetryProps` with a weir between its superjunctions. -/
noncomputable def splitModel : Model := { reModel with n_w := 1 }

/-- Levels 3 and 1 prescribed, gate of the weir fully open. -/
noncomputable def splitInp : Inputs := { reInp 1 with H_bc := some (fun j => if j = 0 then 3 else 1), u_w := fun _ => 1 }

/-- No control. -/
def noShares : Shares 0 := ⟨0, id, fun _ => 1, by simp, by simp, by simp⟩

/-- A quarter and three quarters of one control. -/
noncomputable def quarter : Shares 1 where
  n' := 2
  of := fun _ => 0
  lam := fun k => if k = 0 then 1 / 4 else 3 / 4
  of_lt := by simp
  pos := by intro k _; split_ifs <;> norm_num
  total := by
    intro k hk
    obtain rfl : k = 0 := by omega
    simp [Finset.sum_range_succ]; norm_num

/-- A weir of length 1 that spills from level 3 to level 1 is replaced by weirs of length 1/4 and 3/4: same levels, and
the flow is divided in this proportion. -/
example : ∃ o1 o1', Calls1 splitModel rePlan true splitInp reStart o1 ∧
    Calls1 (splitModel.divide noShares quarter noShares) (rePlan.divide noShares) true
      (splitInp.divide noShares quarter noShares) reStart o1' ∧
    o1'.cur.H = o1.cur.H ∧ o1'.cur.Qw 0 = 1 / 4 * o1.cur.Qw 0 ∧ o1'.cur.Qw 1 = 3 / 4 * o1.cur.Qw 0 ∧
      0 < o1.cur.Qw 0 := by
  have cs : splitModel.Consistent := by
    obtain ⟨c1, c2, c3, c4, c5, -⟩ := reConsistent
    refine ⟨c1, c2, c3, c4, c5, ?_, ?_, ?_, ?_, ?_, ?_⟩ <;> intro k hk <;> simp [splitModel, reModel]
  have sd : Sound splitModel rePlan := by
    obtain ⟨-, s1, s2, s3, s4, s5, s6, s7, s8, s9, s10, s11, s12, s13, s14, s15, s16⟩ := reSound
    exact ⟨cs, s1, s2, s3, s4, s5, s6, s7, s8, s9, s10, s11, s12, s13, s14, s15, s16⟩
  have cw : ∀ m' : Model, CleanWork m' reStart.wk.mats := fun m' =>
    ⟨⟨fun _ _ _ _ => rfl⟩, ⟨fun _ _ _ _ => rfl, fun _ _ => rfl⟩, ⟨fun _ _ _ _ => rfl, fun _ _ => rfl⟩,
      ⟨fun _ _ _ _ => rfl, fun _ _ => rfl⟩⟩
  have gi : GoodInputs splitModel rePlan splitInp := by
    refine ⟨by norm_num [splitInp, reInp], fun p hp => by simp [splitModel, reModel] at hp,
      fun a ha => by simp [splitModel, reModel] at ha⟩
  have d : DividedObj noShares quarter noShares reStart reStart := by
    have h0 : Divided noShares quarter noShares reStart.cur reStart.cur :=
      ⟨rfl, rfl, rfl, rfl, rfl, fun _ h => absurd h (Nat.not_lt_zero _), fun _ _ => by simp [reStart],
        fun _ h => absurd h (Nat.not_lt_zero _)⟩
    exact ⟨h0, h0, rfl, rfl, rfl, rfl, fun _ h => absurd h (Nat.not_lt_zero _)⟩
  obtain ⟨o1, h⟩ := C105_step_succeeds sd gi true ⟨cw _, reStart_sym.good.wet⟩
  obtain ⟨o1', h', dd⟩ := (C169_call (so := noShares) (sw := quarter) (sp := noShares) cs (cw _) (cw _) d true).1 o1 h
  have d1 := (dd ⟨fun _ h => absurd h (Nat.not_lt_zero _), fun _ h => absurd h (Nat.not_lt_zero _)⟩).cur
  refine ⟨o1, o1', h, h', d1.H, ?_, ?_, ?_⟩
  · simpa [quarter] using d1.Qw 0 (by simp [quarter])
  · simpa [quarter] using d1.Qw 1 (by simp [quarter])
  · obtain ⟨Ao, co, x, -, p, rfl⟩ := h
    have e0 := C08_step cs (cw _) p 0 (by simp [splitModel, reModel]) rfl
    have e1 := C08_step cs (cw _) p 1 (by simp [splitModel, reModel]) rfl
    have f0 : clipHead splitModel.z_inv splitModel.max_depth x 0 = 3 := by
      refine Eq.trans e0 ?_
      norm_num [splitInp, splitModel, reModel]
    have f1 : clipHead splitModel.z_inv splitModel.max_depth x 1 = 1 := by
      refine Eq.trans e1 ?_
      norm_num [splitInp, splitModel, reModel]
    have e : weirFlow 3 1 1 ⟨1, 0, 1, 1, 1, 1, 1⟩ = Real.sqrt 72 := by
      norm_num [weirFlow, weirHead, weirConv, omega, sgn]
    change 0 < weirFlow (clipHead splitModel.z_inv splitModel.max_depth x 0)
      (clipHead splitModel.z_inv splitModel.max_depth x 1) 1 ⟨1, 0, 1, 1, 1, 1, 1⟩
    rw [f0, f1, e]
    positivity

/-- An orifice that would pass `sqrt 3` in a step of 1 from a store that holds 1: whole it passes 1, as two
halves more than 1. -/
example : |orificeFlow 1 1 1 2 0 1 1 5 1 ⟨0, 0, 1, 1, false⟩| = 1 ∧
    1 < |orificeFlow 1 1 (1 / 2 * 1) 2 0 1 1 5 1 ⟨0, 0, 1, 1, false⟩ +
      orificeFlow 1 1 ((1 - 1 / 2) * 1) 2 0 1 1 5 1 ⟨0, 0, 1, 1, false⟩| := by
  have e : orificeRaw 1 1 1 2 0 1 ⟨0, 0, 1, 1, false⟩ = Real.sqrt 3 := by
    norm_num [orificeRaw, orificeCoef, omega, sgn]
  have := C169_limited (g := 1) (Ao := 1) (Co := 1) (Hu := 2) (Hd := 0) (u := 1) (Vu := 1) (Vd := 5) (dt := 1) (l := 1 / 2)
    (or := ⟨0, 0, 1, 1, false⟩) (by norm_num) (by norm_num) (by norm_num) (by
      rw [e, abs_of_nonneg (Real.sqrt_nonneg _)]
      norm_num
      exact Real.lt_sqrt_of_sq_lt (by norm_num))
  norm_num at this ⊢
  exact this

end Pipedream.Step
