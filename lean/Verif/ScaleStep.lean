import Verif.ScaleControls

/-!
# Change of scale: network equations and the whole step

Helper lemmas for `ScaleProps`: assembly, head solve, the new state, and the inverse change of scale.
-/

namespace Pipedream.Step

open Pipedream.Sweep Pipedream.Link Pipedream.Superlink Pipedream.Control Pipedream.Network
open Pipedream.Geometry Pipedream.Interp

noncomputable section

namespace Scale

variable (u : Scale)

/-! ### Assembly -/

theorem addAt_sc (c : ℝ) (F : ℕ → ℝ) (J : ℕ → ℕ) (f : ℕ → ℝ) (n : ℕ) :
    addAt (arr c F) J (arr c f) n = arr c (addAt F J f n) := by
  unfold addAt
  refine forRange_map (arr c) n _ _ F fun k a => ?_
  rw [arr_upd, arr_apply, arr_apply, mul_add]

theorem arr_zero (c : ℝ) : (fun _ => (0 : ℝ)) = arr c (fun _ => 0) := by funext; simp [arr]

theorem arr_neg (c : ℝ) (f : ℕ → ℝ) : (fun k => -(arr c f k)) = arr c fun k => -f k := by
  funext; simp only [arr, mul_neg]

theorem mat_upd2 {bc : ℕ → Bool} (A : ℕ → ℕ → ℝ) {r : ℕ} (c : ℕ) (v : ℝ) (h : bc r = false) :
    u.mat bc (upd2 A r c v) = upd2 (u.mat bc A) r c (u.con * v) := by
  funext i j
  simp only [mat, upd2]
  by_cases hi : i = r ∧ j = c
  · rw [if_pos hi, if_pos hi, hi.1, h, if_neg (by simp)]
  · rw [if_neg hi, if_neg hi]

theorem mat_upd2_bc {bc : ℕ → Bool} (A : ℕ → ℕ → ℝ) {r : ℕ} (c : ℕ) (v : ℝ) (h : bc r = true) :
    u.mat bc (upd2 A r c v) = upd2 (u.mat bc A) r c v := by
  funext i j
  simp only [mat, upd2]
  by_cases hi : i = r ∧ j = c
  · rw [if_pos hi, if_pos hi, hi.1, h, if_pos rfl]
  · rw [if_neg hi, if_neg hi]

theorem mat_free {bc : ℕ → Bool} (A : ℕ → ℕ → ℝ) {r : ℕ} (c : ℕ) (h : bc r = false) :
    u.mat bc A r c = u.con * A r c := by
  simp [mat, h]

theorem guard_sc (bc : ℕ → Bool) (A : ℕ → ℕ → ℝ) (r c : ℕ) (v v' : ℝ) (h : bc r = false → v' = u.con * v) :
    (if bc r then u.mat bc A else upd2 (u.mat bc A) r c v') = u.mat bc (if bc r then A else upd2 A r c v) := by
  cases hr : bc r
  · simp only [Bool.false_eq_true, if_false, mat_upd2 u _ _ _ hr, h hr]
  · simp only [if_true]

theorem clearOffDiagonals_sc (bc : ℕ → Bool) (Ju Jd : ℕ → ℕ) (n : ℕ) (A : ℕ → ℕ → ℝ) :
    clearOffDiagonals bc Ju Jd n (u.mat bc A) = u.mat bc (clearOffDiagonals bc Ju Jd n A) := by
  unfold clearOffDiagonals
  refine forRange_map (u.mat bc) n _ _ A fun k A => ?_
  simp only
  rw [u.guard_sc bc A (Ju k) (Jd k) 0 0 (fun _ => (mul_zero _).symm),
    u.guard_sc bc _ (Jd k) (Ju k) 0 0 (fun _ => (mul_zero _).symm)]

theorem setDiag_sc (bc : ℕ → Bool) (d0 : ℝ) (F : ℕ → ℝ) (M : ℕ) (A : ℕ → ℕ → ℝ) :
    setDiag bc d0 (arr u.con F) M (u.mat bc A) = u.mat bc (setDiag bc d0 F M A) := by
  unfold setDiag
  refine forRange_map (u.mat bc) M _ _ A fun k A => ?_
  cases h : bc k
  · simp only [Bool.false_eq_true, if_false, mat_upd2 u _ _ _ h, arr_apply]
  · simp only [if_true, mat_upd2_bc u _ _ _ h]

theorem addOffDiag_sc (bc : ℕ → Bool) (Ju Jd : ℕ → ℕ) (b a : ℕ → ℝ) (n : ℕ) (A : ℕ → ℕ → ℝ) :
    addOffDiag bc Ju Jd (arr u.con b) (arr u.con a) n (u.mat bc A) = u.mat bc (addOffDiag bc Ju Jd b a n A) := by
  unfold addOffDiag
  refine forRange_map (u.mat bc) n _ _ A fun k A => ?_
  simp only [arr_apply]
  rw [u.guard_sc bc A (Ju k) (Jd k) (A (Ju k) (Jd k) + b k) _ fun h => by rw [mat_free u _ _ h]; ring,
    u.guard_sc bc _ (Jd k) (Ju k) _ _ fun h => by rw [mat_free u _ _ h, ← mul_sub]]

/-- Controls at the other scale. -/
def ctrls (c : Ctrls ℝ) : Ctrls ℝ :=
  { c with alpha := arr u.con c.alpha, beta := arr u.con c.beta, chi := arr u.dis c.chi }

/-- Superlinks at the other scale. -/
def links (l : Links ℝ) : Links ℝ :=
  { l with
    alpha_u := arr u.con l.alpha_u, beta_u := arr u.con l.beta_u, chi_u := arr u.dis l.chi_u
    alpha_d := arr u.con l.alpha_d, beta_d := arr u.con l.beta_d, chi_d := arr u.dis l.chi_d
    xi_u := arr u.con l.xi_u, xi_d := arr u.con l.xi_d }

/-- The equations of a step at the other scale. -/
def net (n : Net ℝ) : Net ℝ :=
  { n with
    As := arr (u.L ^ 2) n.As
    links := u.links n.links
    orifices := u.ctrls n.orifices
    weirs := u.ctrls n.weirs
    pumps := u.ctrls n.pumps }

theorem createOWP_sc (bc : ℕ → Bool) (M : ℕ) (C : Ctrls ℝ) (X : ℕ → ℕ → ℝ) :
    createOWP bc M (u.ctrls C) (u.mat bc X) = u.mat bc (createOWP bc M C X) := by
  simp only [createOWP, ctrls]
  rw [arr_zero u.con, addAt_sc, arr_neg, addAt_sc, setDiag_sc, addOffDiag_sc, ← arr_zero]

theorem ctrlBlock_sc (bc : ℕ → Bool) (M : ℕ) (C : Ctrls ℝ) (X : ℕ → ℕ → ℝ) :
    ctrlBlock bc M (u.ctrls C) (u.mat bc X) = u.mat bc (ctrlBlock bc M C X) := by
  unfold ctrlBlock
  show (if C.n = 0 then _ else createOWP bc M (u.ctrls C) (clearOffDiagonals bc C.Ju C.Jd C.n (u.mat bc X))) = _
  rw [clearOffDiagonals_sc, createOWP_sc]
  split_ifs <;> rfl

theorem createA_sc (n : Net ℝ) (dt : ℝ) (A : ℕ → ℕ → ℝ) :
    createA (u.net n) (u.w⁻¹ * dt) (u.mat n.bc A) = u.mat n.bc (createA n dt A) := by
  simp only [createA, net, links]
  have h : ∀ F : ℕ → ℝ, (fun i => arr u.con F i + arr (u.L ^ 2) n.As i / (u.w⁻¹ * dt)) =
      arr u.con fun i => F i + n.As i / dt := fun F => by
    funext i
    simp only [arr_apply, div_dt', con]; ring
  rw [arr_zero u.con, addAt_sc, arr_neg, addAt_sc, addAt_sc, addAt_sc, h, setDiag_sc, addOffDiag_sc, ← arr_zero]

theorem assembleMats_sc (n : Net ℝ) (dt : ℝ) (A : Mats ℝ) :
    assembleMats (u.net n) (u.w⁻¹ * dt) (u.mats n.bc A) = u.mats n.bc (assembleMats n dt A) := by
  simp only [assembleMats, mats, Mats.mk.injEq]
  refine ⟨?_, u.ctrlBlock_sc _ _ _ _, u.ctrlBlock_sc _ _ _ _, u.ctrlBlock_sc _ _ _ _⟩
  show createA (u.net n) _ (clearOffDiagonals n.bc n.links.Ju n.links.Jd n.links.n (u.mat n.bc A.A)) = _
  rw [clearOffDiagonals_sc, createA_sc]

theorem ctrlD_sc (C : Ctrls ℝ) (D : ℕ → ℝ) : ctrlD (u.ctrls C) (arr u.dis D) = arr u.dis (ctrlD C D) := by
  simp only [ctrlD, ctrls, arr_neg, addAt_sc]
  split_ifs <;> rfl

theorem xiH (x H : ℕ → ℝ) (J : ℕ → ℕ) : (fun k => arr u.con x k * arr u.L H (J k)) = arr u.dis fun k => x k * H (J k) := by
  funext k; simp only [arr_apply, dis_eq]; ring

theorem assembleD_sc (n : Net ℝ) (H : ℕ → ℝ) : assembleD (u.net n) (arr u.L H) = arr u.dis (assembleD n H) := by
  simp only [assembleD, net, links]
  rw [arr_neg, xiH, xiH, arr_zero u.dis, addAt_sc, addAt_sc, addAt_sc, addAt_sc, ctrlD_sc, ctrlD_sc, ctrlD_sc, ← arr_zero]

theorem assembleB_sc (n : Net ℝ) (dt : ℝ) (H Q Hb : ℕ → ℝ) (i : ℕ) :
    assembleB (u.net n) (u.w⁻¹ * dt) (arr u.L H) (arr u.dis Q) (arr u.L Hb) i =
      u.L * (if n.bc i then 1 else u.con) * assembleB n dt H Q Hb i := by
  unfold assembleB
  rw [assembleD_sc]
  show (if n.bc i = true then u.L * Hb i
    else u.L ^ 2 * n.As i * (u.L * H i) / (u.w⁻¹ * dt) + u.dis * Q i + u.dis * assembleD n H i) = _
  by_cases h : n.bc i = true
  · rw [if_pos h, if_pos h, if_pos h]; ring
  · rw [if_neg h, if_neg h, if_neg h, div_dt', dis_eq, con]; ring

theorem systemMatrix_sc (n : Net ℝ) (A : Mats ℝ) (i j : ℕ) :
    systemMatrix (u.net n) (u.mats n.bc A) i j = (if n.bc i then 1 else u.con) * systemMatrix n A i j := by
  unfold systemMatrix
  by_cases h : n.orifices.n + n.weirs.n + n.pumps.n = 0
  · rw [if_pos h, if_pos (show (u.net n).orifices.n + (u.net n).weirs.n + (u.net n).pumps.n = 0 from h)]
    simp only [mats, mat]
    by_cases hb : n.bc i = true <;> simp only [hb, if_true, Bool.false_eq_true, if_false, one_mul]
  · rw [if_neg h, if_neg (show ¬(u.net n).orifices.n + (u.net n).weirs.n + (u.net n).pumps.n = 0 from h)]
    simp only [mats, mat]
    by_cases hb : n.bc i = true <;> simp only [hb, if_true, Bool.false_eq_true, if_false, one_mul, mul_add]

theorem clipHead_sc (z d x : ℕ → ℝ) : clipHead (arr u.L z) (arr u.L d) (arr u.L x) = arr u.L (clipHead z d x) := by
  funext i
  simp only [clipHead, arr_apply, ← mul_add, max_sc u.hL, min_sc u.hL]

/-! ### The step -/

/-- The model at another scale follows the same formulas: friction is not Darcy–Weisbach, the exponents of the
pump curves are not zero, parabolas have a height, and the perimeter of an ellipse is a length. -/
structure Similar (m : Model) (P : Plan) : Prop where
  friction : ∀ i, i < m.N → m.method i ≠ 2
  pumps : ∀ p, (m.pump p).c ≠ 0
  sec : ∀ i, (P.sec i).Upright
  ell : u.EllLike P.ell

variable {m : Model} {P : Plan} {geo : Geo} {inp : Inputs} {wk : Work} {prev cur : Hyd} {co : Coef ℝ}

theorem arr_upTo (c : ℝ) (n : ℕ) (f : ℕ → ℝ) : upTo n (arr c f) = arr c (upTo n f) := by
  funext i; simp only [upTo, arr]; split_ifs
  · rfl
  · rw [mul_zero]

theorem upTo_sc {c : ℝ} {n : ℕ} {f f' : ℕ → ℝ} (h : ∀ i, f' i = c * f i) : upTo n f' = arr c (upTo n f) := by
  rw [← arr_upTo]; congr 1; funext i; exact h i

theorem geoOf_sc (s : u.Similar m P) (hid : Hidden) (Ao : ℕ → ℝ) :
    (u.model m).geoOf (u.plan P) (u.hidden hid) (arr (u.L ^ 2) Ao) (u.hyd cur) = u.geo (m.geoOf P hid Ao cur) := by
  have e : ∀ t H z : ℝ, t * (u.L * H - u.L * z) = u.L * (t * (H - z)) := fun t H z => by ring
  simp only [Model.geoOf, geo, model, plan, hidden, hyd, Geo.mk.injEq, arr_apply, e, storageDepth_sc]
  refine ⟨?_, ?_, ?_, ?_, ?_, ?_, ?_, ?_, ?_, ?_, ?_⟩
  · funext i; exact u.sectA_sc _ _ _
  · funext i; exact u.sectR_sc _ s.ell _ (s.sec i) _ _
  · funext i; exact u.sectB_sc _ _ _
  · exact upTo_sc fun k => u.sectA_sc _ _ _
  · exact upTo_sc fun k => u.sectB_sc _ _ _
  · exact upTo_sc fun k => u.sectA_sc _ _ _
  · exact upTo_sc fun k => u.sectB_sc _ _ _
  · exact upTo_sc fun k => u.storageA_sc _ _
  · exact upTo_sc fun k => u.storageV_sc _ _
  · exact arr_upTo _ _ _
  · funext i
    rw [sectA_sc, sectB_sc, damping_sc]
    rfl

theorem nextHidden_sc (Ao : ℕ → ℝ) :
    (u.model m).nextHidden (arr (u.L ^ 2) Ao) (u.hyd cur) = u.hidden (m.nextHidden Ao cur) := by
  simp only [Model.nextHidden, hidden, model, hyd, arr_apply, theta_sc, arr_upTo]

theorem orificeDepth_sc (o : ℕ) : (u.model m).orificeDepth (u.hyd cur) o = u.L * m.orificeDepth cur o := by
  simp only [Model.orificeDepth, model, hyd, orifice, arr_apply, ← mul_sub, max_sc u.hL]

theorem headCoef_sc (k : ℕ) :
    (u.model m).headCoef (u.geo geo) (u.hyd cur) k = u.headCoef (m.headCoef geo cur k) :=
  u.headCoefZ_sc ..

theorem fwd_sc : (u.model m).fwd (u.work m.bc wk) (u.coef co) = u.fwd (m.fwd wk co) := u.sweptFwd_sc ..

theorem bwd_sc : (u.model m).bwd (u.work m.bc wk) (u.coef co) = u.bwd (m.bwd wk co) := u.sweptBwd_sc ..

theorem mEndRec_sc (k : ℕ) :
    (u.model m).endRec (u.work m.bc wk) (u.coef co) k = u.endRec (m.endRec wk co k) := by
  unfold Model.endRec
  rw [fwd_sc, bwd_sc]
  exact u.endRec_sc _ (co.slice (m.ix.i_1k k) (m.ix.I_1k k)) _ _ _ _ _ _ _

theorem oLin_sc (o : ℕ) : (u.model m).oLin (u.geo geo) (u.inputs inp) (u.work m.bc wk) (u.hyd cur) o =
    u.lin (m.oLin geo inp wk cur o) := u.orificeLin_sc ..

theorem wLin_sc (o : ℕ) : (u.model m).wLin (u.inputs inp) (u.work m.bc wk) (u.hyd cur) o =
    u.lin (m.wLin inp wk cur o) := u.weirLin_sc ..

theorem pLin_sc (o : ℕ) : (u.model m).pLin (u.inputs inp) (u.work m.bc wk) (u.hyd cur) o =
    u.lin (m.pLin inp wk cur o) := u.pumpLin_sc ..

theorem xi_sc (dx B th dt : ℝ) : xi (u.L * dx) (u.L * B) th (u.w⁻¹ * dt) = u.con * xi dx B th dt := by
  unfold xi
  rw [mul_left_comm 2, div_dt', con]; ring

theorem net_sc : (u.model m).net (u.geo geo) (u.inputs inp) (u.work m.bc wk) (u.hyd cur) (u.coef co) =
    u.net (m.net geo inp wk cur co) := by
  simp only [Model.net, mEndRec_sc, headCoef_sc, alphaUk_sc, betaUk_sc, chiUk_sc, alphaDk_sc, betaDk_sc, chiDk_sc,
    oLin_sc, wLin_sc, pLin_sc]
  simp only [net, links, ctrls, model, Scale.geo, inputs, hyd, arr_apply, theta_sc, xi_sc, lin]
  rfl

theorem mats_sc : (u.model m).mats (u.geo geo) (u.inputs inp) (u.work m.bc wk) (u.hyd cur) (u.coef co) =
    u.mats m.bc (m.mats geo inp wk cur co) := by
  unfold Model.mats
  rw [net_sc]
  exact u.assembleMats_sc (m.net geo inp wk cur co) _ _

theorem getD_sc : (u.inputs inp).H_bc.getD (u.hyd cur).H = arr u.L (inp.H_bc.getD cur.H) := by
  simp only [inputs]
  cases inp.H_bc <;> rfl

theorem pass_sc (s : u.Similar m P) {x : ℕ → ℝ} (p : Pass m geo inp wk prev cur co x) :
    Pass (u.model m) (u.geo geo) (u.inputs inp) (u.work m.bc wk) (u.hyd prev) (u.hyd cur) (u.coef co) (arr u.L x) := by
  refine ⟨u.stepCoefs_sc m.g s.friction p.coefs, fun i hi => ?_⟩
  have h := p.solve i hi
  unfold Model.lhs Model.rhs at h ⊢
  rw [mats_sc, net_sc, getD_sc]
  have hb := u.assembleB_sc (m.net geo inp wk cur co) inp.dt prev.H inp.Q_in (inp.H_bc.getD cur.H) i
  refine Eq.trans ?_ hb.symm
  rw [← h, Finset.mul_sum]
  refine Finset.sum_congr rfl fun j _ => ?_
  rw [arr_apply]
  have hm := u.systemMatrix_sc (m.net geo inp wk cur co) (m.mats geo inp wk cur co) i j
  have : (m.net geo inp wk cur co).bc = m.bc := rfl
  rw [this] at hm ⊢
  rw [hm]; ring

theorem advance_sc (s : u.Similar m P) (x : ℕ → ℝ) :
    (u.model m).advance (u.geo geo) (u.inputs inp) (u.work m.bc wk) (u.hyd cur) (u.coef co) (arr u.L x) =
      u.hyd (m.advance geo inp wk cur co x) := by
  have hH : clipHead (u.model m).z_inv (u.model m).max_depth (arr u.L x) = arr u.L (clipHead m.z_inv m.max_depth x) :=
    u.clipHead_sc ..
  unfold Model.advance
  simp only [hH, mEndRec_sc, headCoef_sc]
  have hs := u.sweptInternals_sc m.g co m.ix m.min_depth m.max_depth_k
    (fun k => huk (m.endRec wk co k) (m.headCoef geo cur k) (clipHead m.z_inv m.max_depth x (m.Ju k))
      (clipHead m.z_inv m.max_depth x (m.Jd k)))
    (fun k => hdk (m.endRec wk co k) (m.headCoef geo cur k) (clipHead m.z_inv m.max_depth x (m.Ju k))
      (clipHead m.z_inv m.max_depth x (m.Jd k))) m.back wk.f wk.b ⟨cur.h, cur.Q⟩
  have hu : (fun k => huk (u.endRec (m.endRec wk co k)) (u.headCoef (m.headCoef geo cur k))
      (arr u.L (clipHead m.z_inv m.max_depth x) (m.Ju k)) (arr u.L (clipHead m.z_inv m.max_depth x) (m.Jd k))) =
      arr u.L fun k => huk (m.endRec wk co k) (m.headCoef geo cur k) (clipHead m.z_inv m.max_depth x (m.Ju k))
        (clipHead m.z_inv m.max_depth x (m.Jd k)) := by
    funext k; exact u.huk_sc _ _ _ _
  have hd : (fun k => hdk (u.endRec (m.endRec wk co k)) (u.headCoef (m.headCoef geo cur k))
      (arr u.L (clipHead m.z_inv m.max_depth x) (m.Ju k)) (arr u.L (clipHead m.z_inv m.max_depth x) (m.Jd k))) =
      arr u.L fun k => hdk (m.endRec wk co k) (m.headCoef geo cur k) (clipHead m.z_inv m.max_depth x (m.Ju k))
        (clipHead m.z_inv m.max_depth x (m.Jd k)) := by
    funext k; exact u.hdk_sc _ _ _ _
  rw [← hu, ← hd] at hs
  refine Hyd.ext ?_ ?_ ?_ ?_ ?_ ?_ ?_ ?_
  · rfl
  · exact congrArg HQ.h hs
  · exact congrArg HQ.Q hs
  · funext k; exact u.Quk_sc _ _ _ _
  · funext k; exact u.Qdk_sc _ _ _ _
  · funext o; exact u.orificeFlow_sc ..
  · funext o; exact u.weirFlow_sc ..
  · funext o; exact u.pumpFlow_sc _ _ _ _ (s.pumps o)

theorem work_sc : (u.model m).work (u.geo geo) (u.inputs inp) (u.work m.bc wk) (u.hyd cur) (u.coef co) =
    u.work m.bc (m.work geo inp wk cur co) := by
  show Work.mk _ _ _ _ _ _ = Work.mk _ _ _ _ _ _
  rw [mats_sc, fwd_sc, bwd_sc]
  congr 1
  · funext o; exact u.oLin_sc o
  · funext o; exact u.wLin_sc o
  · funext o; exact u.pLin_sc o

theorem call_sc (s : u.Similar m P) {first : Bool} {o o1 : Obj} (h : Calls1 m P first inp o o1) :
    Calls1 (u.model m) (u.plan P) first (u.inputs inp) (u.obj m.bc o) (u.obj m.bc o1) := by
  obtain ⟨Ao, co, x, hA, p, rfl⟩ := h
  have e : (if first then (u.obj m.bc o).cur else (u.obj m.bc o).saved) = u.hyd (if first then o.cur else o.saved) := by
    cases first <;> rfl
  refine ⟨arr (u.L ^ 2) Ao, u.coef co, arr u.L x, fun a ha => ?_, ?_, ?_⟩
  · show orificeArea (u.L ^ 2 * o.hid.Ao a) (P.oShape a) (u.gp (P.oShape a) (P.oGP a)) ((u.model m).orificeDepth (u.hyd o.cur) a)
      (inp.u_o a) = _
    rw [orificeDepth_sc, orificeArea_sc, hA a ha]
    rfl
  · have := u.pass_sc s p
    rw [e]
    show Pass (u.model m) ((u.model m).geoOf (u.plan P) (u.hidden o.hid) (arr (u.L ^ 2) Ao) (u.hyd o.cur)) _ _ _ _ _ _
    rw [geoOf_sc u s]
    exact this
  · rw [e]
    simp only [obj, geoOf_sc u s, advance_sc u s, work_sc, nextHidden_sc]

end Scale

end

end Pipedream.Step
