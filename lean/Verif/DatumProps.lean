import Verif.RetryProps

/-!
# C106: the height datum is arbitrary

Elevations enter a model as inverts of superjunctions, of superlink ends and of controls, and as heads.
Adding the same number to all of them is only another choice of the zero level. Here: the step, with the
geometry it computes itself, commutes with that change, call by call and for every history.
-/

namespace Pipedream.Step

open Pipedream.Sweep Pipedream.Link Pipedream.Superlink Pipedream.Control Pipedream.Network
open Pipedream.Geometry Pipedream.Interp

/-! ### The change of datum (specification) -/

/-- Every elevation of the model raised by `d`; lengths, depths and slopes unchanged. The records of
controls contain the invert of their upstream superjunction (superlink.py 395–470). -/
noncomputable def Model.raise (d : ℝ) (m : Model) : Model :=
  { m with
    z_inv := fun j => m.z_inv j + d
    z_uk := fun k => m.z_uk k + d
    z_dk := fun k => m.z_dk k + d
    orifice := fun o => { m.orifice o with z_inv := (m.orifice o).z_inv + d }
    weir := fun w => { m.weir w with z_inv := (m.weir w).z_inv + d }
    pump := fun p => { m.pump p with z_inv := (m.pump p).z_inv + d } }

/-- The same water over the raised model. -/
noncomputable def Hyd.raise (d : ℝ) (s : Hyd) : Hyd := { s with H := fun j => s.H j + d }

/-- The same boundary conditions over the raised model. -/
noncomputable def Inputs.raise (d : ℝ) (inp : Inputs) : Inputs :=
  { inp with H_bc := inp.H_bc.map fun f j => f j + d }

/-- The same linear relation between raised heads. -/
noncomputable def linRaise (d : ℝ) (l : Lin) : Lin := ⟨l.alpha, l.beta, l.chi - d * (l.alpha + l.beta)⟩

/-- Scratch arrays over the raised model. -/
noncomputable def Work.raise (d : ℝ) (w : Work) : Work :=
  { w with
    lo := fun i => linRaise d (w.lo i), lw := fun i => linRaise d (w.lw i), lp := fun i => linRaise d (w.lp i) }

/-- The object over the raised model; the end switches and orifice areas are the same. -/
noncomputable def Obj.raise (d : ℝ) (o : Obj) : Obj :=
  ⟨o.saved.raise d, o.cur.raise d, o.wk.raise d, o.hid⟩

/-! ### The stages of a step -/

variable {m : Model} {P : Plan} {geo : Geo} {inp : Inputs} {wk : Work} {prev cur : Hyd} {co : Coef ℝ}

theorem theta_raise (d H z : ℝ) : theta (H + d) (z + d) = theta H z := by
  unfold theta; simp only [ge_iff_le, add_le_add_iff_right]

theorem omega_raise (d Hu Hd : ℝ) : omega (Hu + d) (Hd + d) = omega Hu Hd := by
  unfold omega; simp only [ge_iff_le, add_le_add_iff_right]

theorem sgn_raise (d Hu Hd : ℝ) : sgn (Hu + d) (Hd + d) = sgn Hu Hd := by
  unfold sgn; simp only [ge_iff_le, add_le_add_iff_right]

theorem linkIn_raise (d : ℝ) :
    (m.raise d).linkIn geo (inp.raise d) (prev.raise d) (cur.raise d) = m.linkIn geo inp prev cur := rfl

theorem nodeIn_raise (d : ℝ) :
    (m.raise d).nodeIn geo (inp.raise d) (prev.raise d) = m.nodeIn geo inp prev := rfl

theorem endRec_raise (d : ℝ) (k : ℕ) :
    (m.raise d).endRec (wk.raise d) co k = m.endRec wk co k := rfl

/-- The constant terms of the end relations absorb the change of datum. -/
noncomputable def headRaise (d : ℝ) (k : HeadCoef ℝ) : HeadCoef ℝ :=
  { k with mu_u := k.mu_u - k.lam_u * d, mu_d := k.mu_d - k.lam_d * d }

theorem headCoef_raise (d : ℝ) (k : ℕ) :
    (m.raise d).headCoef geo (cur.raise d) k = headRaise d (m.headCoef geo cur k) := by
  simp only [Model.headCoef, Model.raise, Hyd.raise, headCoefZ, headRaise, theta_raise, HeadCoef.mk.injEq,
    true_and]
  constructor <;> ring

theorem chiUk_raise (d : ℝ) (r : EndRec ℝ) (k : HeadCoef ℝ) :
    chiUk r (headRaise d k) = chiUk r k - d * (alphaUk r k + betaUk r k) := by
  simp only [chiUk, alphaUk, betaUk, headRaise, DkStar, safeDivide_eq]
  ring

theorem chiDk_raise (d : ℝ) (r : EndRec ℝ) (k : HeadCoef ℝ) :
    chiDk r (headRaise d k) = chiDk r k - d * (alphaDk r k + betaDk r k) := by
  simp only [chiDk, alphaDk, betaDk, headRaise, DkStar, safeDivide_eq]
  ring

theorem Quk_raise (d : ℝ) (r : EndRec ℝ) (k : HeadCoef ℝ) (Hu Hd : ℝ) :
    Quk r (headRaise d k) (Hu + d) (Hd + d) = Quk r k Hu Hd := by
  have ea : alphaUk r (headRaise d k) = alphaUk r k := rfl
  have eb : betaUk r (headRaise d k) = betaUk r k := rfl
  simp only [Quk, chiUk_raise, ea, eb]; ring

theorem Qdk_raise (d : ℝ) (r : EndRec ℝ) (k : HeadCoef ℝ) (Hu Hd : ℝ) :
    Qdk r (headRaise d k) (Hu + d) (Hd + d) = Qdk r k Hu Hd := by
  have ea : alphaDk r (headRaise d k) = alphaDk r k := rfl
  have eb : betaDk r (headRaise d k) = betaDk r k := rfl
  simp only [Qdk, chiDk_raise, ea, eb]; ring

theorem huk_raise (d : ℝ) (r : EndRec ℝ) (k : HeadCoef ℝ) (Hu Hd : ℝ) :
    huk r (headRaise d k) (Hu + d) (Hd + d) = huk r k Hu Hd := by
  simp only [huk, Quk_raise]; simp only [headRaise]; ring

theorem hdk_raise (d : ℝ) (r : EndRec ℝ) (k : HeadCoef ℝ) (Hu Hd : ℝ) :
    hdk r (headRaise d k) (Hu + d) (Hd + d) = hdk r k Hu Hd := by
  simp only [hdk, Qdk_raise]; simp only [headRaise]; ring

/-! ### Controls -/

theorem upper_raise (d Hu Hd : ℝ) :
    omega Hu Hd * (Hu + d) + (1 - omega Hu Hd) * (Hd + d) = omega Hu Hd * Hu + (1 - omega Hu Hd) * Hd + d := by
  ring

theorem lower_raise (d Hu Hd : ℝ) :
    (1 - omega Hu Hd) * (Hu + d) + omega Hu Hd * (Hd + d) = (1 - omega Hu Hd) * Hu + omega Hu Hd * Hd + d := by
  ring

theorem orificeCoef_raise (d : ℝ) (old : Lin) (γ Hu Hd u : ℝ) (o : Orifice) :
    orificeCoef (linRaise d old) γ (Hu + d) (Hd + d) u { o with z_inv := o.z_inv + d } =
      linRaise d (orificeCoef old γ Hu Hd u o) := by
  have c0 : ∀ a b t : ℝ, (a + d > o.z_o + (o.z_inv + d) + t) = (a > o.z_o + o.z_inv + t) := fun a b t =>
    propext ⟨fun h => by linarith, fun h => by linarith⟩
  have c2 : ∀ a : ℝ, (a + d > o.z_o + (o.z_inv + d)) = (a > o.z_o + o.z_inv) := fun a =>
    propext ⟨fun h => by linarith, fun h => by linarith⟩
  have c3 : (Hd + d ≥ Hu + d) = (Hd ≥ Hu) := propext ⟨fun h => by linarith, fun h => by linarith⟩
  simp only [orificeCoef, omega_raise, sgn_raise, upper_raise, lower_raise, c0 _ 0, c2, c3]
  split_ifs <;> simp only [linRaise, Lin.mk.injEq, true_and] <;> ring

theorem weirHead_raise (d Hu Hd u : ℝ) (w : Weir) :
    weirHead (Hu + d) (Hd + d) u { w with z_inv := w.z_inv + d } = weirHead Hu Hd u w := by
  have c0 : ∀ a t : ℝ, (a + d > w.z_w + (w.z_inv + d) + t) = (a > w.z_w + w.z_inv + t) := fun a t =>
    propext ⟨fun h => by linarith, fun h => by linarith⟩
  simp only [weirHead, omega_raise, upper_raise, lower_raise, c0]
  congr 1
  split_ifs <;> ring

theorem weirLin_raise (d : ℝ) (old : Lin) (Q Hu Hd u : ℝ) (w : Weir) :
    weirLin (linRaise d old) Q (Hu + d) (Hd + d) u { w with z_inv := w.z_inv + d } =
      linRaise d (weirLin old Q Hu Hd u w) := by
  have c0 : ∀ a t : ℝ, (a + d > w.z_w + (w.z_inv + d) + t) = (a > w.z_w + w.z_inv + t) := fun a t =>
    propext ⟨fun h => by linarith, fun h => by linarith⟩
  have e : ∀ q H, gammaW q H { w with z_inv := w.z_inv + d } = gammaW q H w := fun _ _ => rfl
  simp only [weirLin, omega_raise, sgn_raise, upper_raise, lower_raise, c0, weirHead_raise, e]
  split_ifs <;> simp only [linRaise, Lin.mk.injEq, true_and] <;> ring

theorem pumpHead_raise (d Hu Hd : ℝ) (p : Pump) :
    pumpHead (Hu + d) (Hd + d) { p with z_inv := p.z_inv + d } = pumpHead Hu Hd p := by
  simp only [pumpHead, add_sub_add_right_eq_sub]

theorem pumpLin_raise (d : ℝ) (old : Lin) (Q Hu Hd u : ℝ) (p : Pump) :
    pumpLin (linRaise d old) Q (Hu + d) (Hd + d) u { p with z_inv := p.z_inv + d } =
      linRaise d (pumpLin old Q Hu Hd u p) := by
  have c0 : (Hu + d > p.z_inv + d + p.z_p) = (Hu > p.z_inv + p.z_p) :=
    propext ⟨fun h => by linarith, fun h => by linarith⟩
  have e : gammaP Q u { p with z_inv := p.z_inv + d } = gammaP Q u p := rfl
  simp only [pumpLin, pumpHead_raise, c0, e, add_sub_add_right_eq_sub]
  split_ifs <;> simp only [linRaise, Lin.mk.injEq, true_and] <;> ring

theorem orificeFlow_raise (d g Ao Co Hu Hd u Vu Vd dt : ℝ) (o : Orifice) :
    orificeFlow g Ao Co (Hu + d) (Hd + d) u Vu Vd dt { o with z_inv := o.z_inv + d } =
      orificeFlow g Ao Co Hu Hd u Vu Vd dt o := by
  have h0 : (⟨0, 0, 0⟩ : Lin) = linRaise d ⟨0, 0, 0⟩ := by simp [linRaise]
  have e : orificeRaw g Ao Co (Hu + d) (Hd + d) u { o with z_inv := o.z_inv + d } =
      orificeRaw g Ao Co Hu Hd u o := by
    simp only [orificeRaw, sgn_raise]
    rw [h0, orificeCoef_raise, ← h0]
    simp only [linRaise]
    congr 3; ring
  simp only [orificeFlow, orificeLimit, e, gt_iff_lt, add_lt_add_iff_right]

theorem weirFlow_raise (d Hu Hd u : ℝ) (w : Weir) :
    weirFlow (Hu + d) (Hd + d) u { w with z_inv := w.z_inv + d } = weirFlow Hu Hd u w := by
  simp only [weirFlow, weirHead_raise, sgn_raise]; rfl

theorem pumpFlow_raise (d Hu Hd u : ℝ) (p : Pump) :
    pumpFlow (Hu + d) (Hd + d) u { p with z_inv := p.z_inv + d } = pumpFlow Hu Hd u p := by
  have c0 : (Hu + d > p.z_inv + d + p.z_p) = (Hu > p.z_inv + p.z_p) :=
    propext ⟨fun h => by linarith, fun h => by linarith⟩
  simp only [pumpFlow, pumpHead_raise, c0]

theorem oLin_raise (d : ℝ) (k : ℕ) :
    (m.raise d).oLin geo (inp.raise d) (wk.raise d) (cur.raise d) k = linRaise d (m.oLin geo inp wk cur k) :=
  orificeCoef_raise d _ _ _ _ _ _

theorem wLin_raise (d : ℝ) (k : ℕ) :
    (m.raise d).wLin (inp.raise d) (wk.raise d) (cur.raise d) k = linRaise d (m.wLin inp wk cur k) :=
  weirLin_raise d _ _ _ _ _ _

theorem pLin_raise (d : ℝ) (k : ℕ) :
    (m.raise d).pLin (inp.raise d) (wk.raise d) (cur.raise d) k = linRaise d (m.pLin inp wk cur k) :=
  pumpLin_raise d _ _ _ _ _ _

/-! ### Head equations -/

/-- The network of the raised model: only constant terms differ. -/
theorem net_raise (d : ℝ) :
    (m.raise d).net geo (inp.raise d) (wk.raise d) (cur.raise d) co =
      let n := m.net geo inp wk cur co
      { n with
        links := { n.links with
          chi_u := fun k => n.links.chi_u k - d * (n.links.alpha_u k + n.links.beta_u k)
          chi_d := fun k => n.links.chi_d k - d * (n.links.alpha_d k + n.links.beta_d k) }
        orifices := { n.orifices with
          chi := fun k => n.orifices.chi k - d * (n.orifices.alpha k + n.orifices.beta k) }
        weirs := { n.weirs with
          chi := fun k => n.weirs.chi k - d * (n.weirs.alpha k + n.weirs.beta k) }
        pumps := { n.pumps with
          chi := fun k => n.pumps.chi k - d * (n.pumps.alpha k + n.pumps.beta k) } } := by
  have hx : ∀ k, theta ((cur.raise d).H ((m.raise d).Ju k)) ((m.raise d).z_uk k) =
      theta (cur.H (m.Ju k)) (m.z_uk k) := fun k => theta_raise d _ _
  have hx' : ∀ k, theta ((cur.raise d).H ((m.raise d).Jd k)) ((m.raise d).z_dk k) =
      theta (cur.H (m.Jd k)) (m.z_dk k) := fun k => theta_raise d _ _
  simp only [Model.net, endRec_raise, headCoef_raise, chiUk_raise, chiDk_raise, oLin_raise, wLin_raise,
    pLin_raise, hx, hx']
  rfl

theorem mats_raise (d : ℝ) :
    (m.raise d).mats geo (inp.raise d) (wk.raise d) (cur.raise d) co = m.mats geo inp wk cur co := by
  simp only [Model.mats, net_raise]; rfl

theorem ctrl_inflow_raise (d : ℝ) (C : Ctrls ℝ) (x : ℕ → ℝ) (i : ℕ) :
    ({ C with chi := fun k => C.chi k - d * (C.alpha k + C.beta k) } : Ctrls ℝ).inflow (fun j => x j + d) i =
      C.inflow x i := by
  unfold Ctrls.inflow Ctrls.Q
  refine Finset.sum_congr rfl fun k _ => ?_
  have : C.alpha k * (x (C.Ju k) + d) + C.beta k * (x (C.Jd k) + d) + (C.chi k - d * (C.alpha k + C.beta k)) =
    C.alpha k * x (C.Ju k) + C.beta k * x (C.Jd k) + C.chi k := by ring
  simp only [this]

theorem link_inflow_raise (d : ℝ) (L : Links ℝ) (x : ℕ → ℝ) (i : ℕ) :
    ({ L with chi_u := fun k => L.chi_u k - d * (L.alpha_u k + L.beta_u k),
              chi_d := fun k => L.chi_d k - d * (L.alpha_d k + L.beta_d k) } : Links ℝ).inflow
      (fun j => x j + d) i = L.inflow x i := by
  unfold Links.inflow Links.Qu Links.Qd
  refine Finset.sum_congr rfl fun k _ => ?_
  have e1 : L.alpha_u k * (x (L.Ju k) + d) + L.beta_u k * (x (L.Jd k) + d) +
      (L.chi_u k - d * (L.alpha_u k + L.beta_u k)) =
    L.alpha_u k * x (L.Ju k) + L.beta_u k * x (L.Jd k) + L.chi_u k := by ring
  have e2 : L.alpha_d k * (x (L.Ju k) + d) + L.beta_d k * (x (L.Jd k) + d) +
      (L.chi_d k - d * (L.alpha_d k + L.beta_d k)) =
    L.alpha_d k * x (L.Ju k) + L.beta_d k * x (L.Jd k) + L.chi_d k := by ring
  simp only [e1, e2]

theorem balanced_raise (d : ℝ) (x : ℕ → ℝ) (i : ℕ) :
    Network.Balanced ((m.raise d).net geo (inp.raise d) (wk.raise d) (cur.raise d) co) inp.dt
      (prev.raise d).H inp.Q_in (fun j => x j + d) i ↔
    Network.Balanced (m.net geo inp wk cur co) inp.dt prev.H inp.Q_in x i := by
  rw [net_raise]
  unfold Network.Balanced
  simp only [ctrl_inflow_raise, link_inflow_raise, Hyd.raise, add_sub_add_right_eq_sub]
  exact Iff.rfl

theorem consistent_raise (d : ℝ) (c : m.Consistent) : (m.raise d).Consistent :=
  ⟨c.layout, c.inN, c.nodes, c.Ju, c.Jd, c.Juo, c.Jdo, c.Juw, c.Jdw, c.Jup, c.Jdp⟩

theorem clean_raise (d : ℝ) (cw : CleanWork m wk.mats) : CleanWork (m.raise d) (wk.raise d).mats :=
  ⟨cw.A, cw.O, cw.W, cw.P⟩

theorem getD_raise (d : ℝ) (j : ℕ) :
    (inp.raise d).H_bc.getD (cur.raise d).H j = inp.H_bc.getD cur.H j + d := by
  unfold Inputs.raise
  cases inp.H_bc <;> rfl

/-- A pass over the raised model. -/
theorem pass_raise (d : ℝ) {x : ℕ → ℝ} (c : m.Consistent) (cw : CleanWork m wk.mats)
    (p : Pass m geo inp wk prev cur co x) :
    Pass (m.raise d) geo (inp.raise d) (wk.raise d) (prev.raise d) (cur.raise d) co (fun j => x j + d) := by
  refine ⟨p.coefs, ?_⟩
  have h := p.solve
  unfold Model.lhs Model.rhs Model.mats at h ⊢
  have e1 := solves_iff (m.net geo inp wk cur co) inp.dt wk.mats cw.mats (wired c) prev.H inp.Q_in
    (inp.H_bc.getD cur.H) x
  have e2 := solves_iff ((m.raise d).net geo (inp.raise d) (wk.raise d) (cur.raise d) co) (inp.raise d).dt
    (wk.raise d).mats (clean_raise d cw).mats (wired (consistent_raise d c)) (prev.raise d).H (inp.raise d).Q_in
    ((inp.raise d).H_bc.getD (cur.raise d).H) (fun j => x j + d)
  refine e2.mpr fun i hi => ?_
  obtain ⟨hb, hf⟩ := e1.mp h i hi
  refine ⟨fun hbc => ?_, fun hbc => ?_⟩
  · rw [getD_raise, hb hbc]
  · exact (balanced_raise d x i).mpr (hf hbc)

/-! ### New state -/

theorem clipHead_raise (d : ℝ) (x : ℕ → ℝ) (j : ℕ) :
    clipHead (m.raise d).z_inv (m.raise d).max_depth (fun j => x j + d) j =
      clipHead m.z_inv m.max_depth x j + d := by
  simp only [clipHead, Model.raise]
  rw [max_add_add_right, show m.z_inv j + d + m.max_depth j = m.z_inv j + m.max_depth j + d by ring,
    min_add_add_right]

theorem advance_raise (d : ℝ) (x : ℕ → ℝ) :
    (m.raise d).advance geo (inp.raise d) (wk.raise d) (cur.raise d) co (fun j => x j + d) =
      (m.advance geo inp wk cur co x).raise d := by
  have hc : clipHead (m.raise d).z_inv (m.raise d).max_depth (fun j => x j + d) =
      fun j => clipHead m.z_inv m.max_depth x j + d := funext (clipHead_raise d x)
  have hu : ∀ k, huk ((m.raise d).endRec (wk.raise d) co k) ((m.raise d).headCoef geo (cur.raise d) k)
      (clipHead m.z_inv m.max_depth x (m.Ju k) + d) (clipHead m.z_inv m.max_depth x (m.Jd k) + d) =
      huk (m.endRec wk co k) (m.headCoef geo cur k) (clipHead m.z_inv m.max_depth x (m.Ju k))
        (clipHead m.z_inv m.max_depth x (m.Jd k)) := fun k => by
    rw [endRec_raise, headCoef_raise, huk_raise]
  have hd : ∀ k, hdk ((m.raise d).endRec (wk.raise d) co k) ((m.raise d).headCoef geo (cur.raise d) k)
      (clipHead m.z_inv m.max_depth x (m.Ju k) + d) (clipHead m.z_inv m.max_depth x (m.Jd k) + d) =
      hdk (m.endRec wk co k) (m.headCoef geo cur k) (clipHead m.z_inv m.max_depth x (m.Ju k))
        (clipHead m.z_inv m.max_depth x (m.Jd k)) := fun k => by
    rw [endRec_raise, headCoef_raise, hdk_raise]
  have eJu : (m.raise d).Ju = m.Ju := rfl
  have eJd : (m.raise d).Jd = m.Jd := rfl
  unfold Model.advance
  simp only [hc, eJu, eJd, hu, hd]
  unfold Hyd.raise
  simp only [Hyd.mk.injEq, true_and]
  refine ⟨rfl, rfl, ?_, ?_, ?_, ?_, ?_⟩
  · funext k; rw [endRec_raise]; erw [headCoef_raise]; rw [Quk_raise]
  · funext k; rw [endRec_raise]; erw [headCoef_raise]; rw [Qdk_raise]
  · funext k; exact orificeFlow_raise d _ _ _ _ _ _ _ _ _ _
  · funext k; exact weirFlow_raise d _ _ _ _
  · funext k; exact pumpFlow_raise d _ _ _ _

theorem work_raise (d : ℝ) :
    (m.raise d).work geo (inp.raise d) (wk.raise d) (cur.raise d) co = (m.work geo inp wk cur co).raise d := by
  have e1 : (m.raise d).oLin geo (inp.raise d) (wk.raise d) (cur.raise d) =
      fun i => linRaise d (m.oLin geo inp wk cur i) := funext fun i => oLin_raise d i
  have e2 : (m.raise d).wLin (inp.raise d) (wk.raise d) (cur.raise d) =
      fun i => linRaise d (m.wLin inp wk cur i) := funext fun i => wLin_raise d i
  have e3 : (m.raise d).pLin (inp.raise d) (wk.raise d) (cur.raise d) =
      fun i => linRaise d (m.pLin inp wk cur i) := funext fun i => pLin_raise d i
  simp only [Model.work, mats_raise, e1, e2, e3]
  rfl

/-! ### Geometry -/

theorem geoOf_raise (d : ℝ) (hid : Hidden) (Ao : ℕ → ℝ) (s : Hyd) :
    (m.raise d).geoOf P hid Ao (s.raise d) = m.geoOf P hid Ao s := by
  have e : ∀ z H : ℝ, H + d - (z + d) = H - z := fun z H => by ring
  have e2 : ∀ z H : ℝ, storageDepth (H + d) (z + d) m.min_depth = storageDepth H z m.min_depth := fun z H => by
    simp only [storageDepth, e]
  simp only [Model.geoOf, Model.raise, Hyd.raise, e, e2]

theorem nextHidden_raise (d : ℝ) (Ao : ℕ → ℝ) (s : Hyd) :
    (m.raise d).nextHidden Ao (s.raise d) = m.nextHidden Ao s := by
  simp only [Model.nextHidden, Model.raise, Hyd.raise, theta_raise]

theorem orificeDepth_raise (d : ℝ) (s : Hyd) (o : ℕ) :
    (m.raise d).orificeDepth (s.raise d) o = m.orificeDepth s o := by
  simp only [Model.orificeDepth, Model.raise, Hyd.raise]
  congr 1 <;> ring

/-! ### C106 -/

/-- **C106 (one call).** Over the raised model the raised object makes the raised call. -/
theorem C106_call (d : ℝ) {first : Bool} {o o1 : Obj} (c : m.Consistent) (cw : CleanWork m o.wk.mats)
    (h : Calls1 m P first inp o o1) : Calls1 (m.raise d) P first (inp.raise d) (o.raise d) (o1.raise d) := by
  obtain ⟨Ao, co, x, hA, p, rfl⟩ := h
  refine ⟨Ao, co, fun j => x j + d, fun a ha => ?_, ?_, ?_⟩
  · have := hA a ha
    rw [← orificeDepth_raise d] at this
    exact this
  · have := pass_raise d c cw p
    simp only [Obj.raise, geoOf_raise]
    cases first <;> exact this
  · simp only [Obj.raise, geoOf_raise, advance_raise, work_raise, nextHidden_raise]
    cases first <;> rfl

theorem raise_add (d e : ℝ) (m : Model) : (m.raise d).raise e = m.raise (d + e) := by
  simp only [Model.raise, add_assoc]

theorem raise_zero (m : Model) : m.raise 0 = m := by
  simp only [Model.raise, add_zero]

theorem Inputs.raise_add (d e : ℝ) (inp : Inputs) : (inp.raise d).raise e = inp.raise (d + e) := by
  unfold Inputs.raise
  cases inp.H_bc <;> simp [add_assoc]

theorem Inputs.raise_zero (inp : Inputs) : inp.raise 0 = inp := by
  rcases inp with ⟨dt, hb, _⟩
  cases hb <;> simp [Inputs.raise]

theorem linRaise_add (d e : ℝ) (l : Lin) : linRaise e (linRaise d l) = linRaise (d + e) l := by
  simp only [linRaise, Lin.mk.injEq, true_and]; ring

theorem linRaise_zero (l : Lin) : linRaise 0 l = l := by simp [linRaise]

theorem Obj.raise_add (d e : ℝ) (o : Obj) : (o.raise d).raise e = o.raise (d + e) := by
  simp only [Obj.raise, Hyd.raise, Work.raise, linRaise_add, add_assoc]

theorem Obj.raise_zero (o : Obj) : o.raise 0 = o := by
  simp only [Obj.raise, Hyd.raise, Work.raise, linRaise_zero, add_zero]

/-- **C106.** A history of calls over a model is possible exactly when the same history is possible with
all elevations raised by `d`; the results are the raised results: depths, flows, end switches and areas
are the same, heads differ by `d`. -/
theorem C106_history (d : ℝ) (c : m.Consistent) (l : List (Bool × Inputs)) {o o1 : Obj}
    (cw : CleanWork m o.wk.mats) :
    History m P l o o1 ↔
      History (m.raise d) P (l.map fun q => (q.1, q.2.raise d)) (o.raise d) (o1.raise d) := by
  have key : ∀ (d : ℝ) (m : Model) (l : List (Bool × Inputs)) (o o1 : Obj), m.Consistent →
      CleanWork m o.wk.mats → History m P l o o1 →
      History (m.raise d) P (l.map fun q => (q.1, q.2.raise d)) (o.raise d) (o1.raise d) := by
    intro d m l
    induction l with
    | nil => intro o o1 _ _ h; cases h; rfl
    | cons q rest ih =>
      intro o o1 c cw h
      obtain ⟨o2, h2, h⟩ := h
      refine ⟨o2.raise d, C106_call d c cw h2, ih _ _ c ?_ h⟩
      obtain ⟨Ao, co, x, -, p, rfl⟩ := h2
      exact cw.next
  refine ⟨key d m l o o1 c cw, fun h => ?_⟩
  have := key (-d) _ _ (o.raise d) _ (consistent_raise d c) (clean_raise d cw) h
  simpa only [Step.raise_add, Obj.raise_add, List.map_map, Function.comp_def, Inputs.raise_add, add_neg_cancel,
    Step.raise_zero, Obj.raise_zero, Inputs.raise_zero, Prod.mk.eta, List.map_id'] using this

theorem Sound.raise (d : ℝ) (sd : Sound m P) : Sound (m.raise d) P :=
  ⟨consistent_raise d sd.cons, sd.g_pos, sd.md_pos, sd.n_pos, sd.dx_pos, sd.C_nonneg, sd.AS_nonneg, sd.dxu, sd.dxd,
    sd.Cu, sd.Cd, sd.b_p, sd.friction, sd.eps_pos, sd.sec, sd.storage, sd.damp⟩

/-- **C106 (sound models).** Whatever object the raised model reaches with the raised inputs, it agrees with
the raised result. -/
theorem C106_results (d : ℝ) (sd : Sound m P) (l : List (Bool × Inputs)) (hl : ∀ q ∈ l, GoodInputs m P q.2)
    {o o1 o2 : Obj} (go : GoodObj m o) (h : History m P l o o1)
    (h2 : History (m.raise d) P (l.map fun q => (q.1, q.2.raise d)) (o.raise d) o2) :
    (∀ j, j < m.M → o2.cur.H j = o1.cur.H j + d) ∧ o2.cur.h = o1.cur.h ∧ o2.cur.Q = o1.cur.Q ∧
    (∀ k, k < m.ix.NK → o2.cur.Qu k = o1.cur.Qu k ∧ o2.cur.Qd k = o1.cur.Qd k) ∧
    (∀ k, k < m.n_o → o2.cur.Qo k = o1.cur.Qo k) ∧ (∀ k, k < m.n_w → o2.cur.Qw k = o1.cur.Qw k) ∧
    (∀ k, k < m.n_p → o2.cur.Qp k = o1.cur.Qp k) := by
  have h1 := (C106_history d sd.cons l go.clean).mp h
  have u := (C105_unique (sd.raise d) _ (fun q hq => by
    obtain ⟨q, hq', rfl⟩ := List.mem_map.mp hq
    have := hl q hq'
    exact ⟨this.dt_pos, this.u_p, this.u_o⟩) (o := o.raise d) ⟨clean_raise d go.clean, go.wet⟩ h2 h1).cur
  exact ⟨u.H, u.h, u.Q, fun k hk => ⟨u.Qu k hk, u.Qd k hk⟩, u.Qo, u.Qw, u.Qp⟩

/-- A case: the model of `RetryProps` raised by 100 m, run for two calls. -/
example : ∃ o o2, History reModel rePlan [(true, reInp 3), (false, reInp 4)] reStart o ∧
    History (reModel.raise 100) rePlan [(true, (reInp 3).raise 100), (false, (reInp 4).raise 100)]
      (reStart.raise 100) o2 ∧ o2.cur.H 0 = o.cur.H 0 + 100 ∧ o2.cur.Q = o.cur.Q := by
  obtain ⟨o, h, -⟩ := C105_every_history_succeeds reSound [(true, reInp 3), (false, reInp 4)] (fun q hq => by
    simp only [List.mem_cons, List.not_mem_nil, or_false] at hq
    rcases hq with rfl | rfl
    · exact reGood 3
    · exact reGood 4) reStart_sym.good
  exact ⟨o, o.raise 100, h, (C106_history 100 reConsistent _ reStart_sym.good.clean).mp h, rfl, rfl⟩

end Pipedream.Step
