import Verif.MirrorProps
import Verif.PartProps

/-!
# C111: cases and the counterexample

A symmetric superlink of three links with equal heads at its ends shows no flow in its middle link. When the
interior depths are cut at the section height, the code reports one, in the direction in which the superlink
was entered.
-/

namespace Pipedream.Step

open Pipedream.Sweep Pipedream.Link Pipedream.Superlink Pipedream.Control Pipedream.Network
open Pipedream.Geometry Pipedream.Interp

/-! ### A case for the hypotheses of `C111_direction_partial` -/

/-- `swapModel` is `reModel` entered from the other end. -/
theorem swapTurned : Turned (fun _ => true) reModel rePlan swapModel rePlan := by
  constructor <;> simp [swapModel, reModel, rePlan, endAt, linkAt, nodeAt, signed1]

example : ∃ o a a', SameThing (fun _ => true) reModel reStart o ∧
    BothRun (fun _ => true) reModel rePlan swapModel rePlan reStart o a a' ∧ a.cur.H 0 = 3 ∧
    SameThing (fun _ => true) reModel a a' := by
  have sw : Sound swapModel rePlan := by
    refine ⟨swapConsistent, ?_, ?_, ?_, ?_, ?_, ?_, ?_, ?_, ?_, ?_, ?_, ?_, ?_, ?_, ?_, ?_⟩
    all_goals first
      | (intros; simp [swapModel, reModel, rePlan, Section.Usable, Wettable, Valid, Storage.Usable]; done)
      | norm_num [swapModel, reModel, rePlan]
  have gs : GoodInputs swapModel rePlan (reInp 3) := by
    refine ⟨by norm_num [reInp], fun p hp => by simp [swapModel, reModel] at hp,
      fun a ha => by simp [swapModel, reModel] at ha⟩
  have go' : GoodObj swapModel reStart :=
    ⟨⟨⟨fun _ _ _ _ => rfl⟩, ⟨fun _ _ _ _ => rfl, fun _ _ => rfl⟩, ⟨fun _ _ _ _ => rfl, fun _ _ => rfl⟩,
      ⟨fun _ _ _ _ => rfl, fun _ _ => rfl⟩⟩, fun _ => by simp [reStart, swapModel, reModel]⟩
  obtain ⟨a, ha⟩ := C105_step_succeeds reSound (reGood 3) true reStart_sym.good
  obtain ⟨a', ha'⟩ := C105_step_succeeds sw gs true go'
  have st : SameThing (fun _ => true) reModel reStart reStart := by
    refine ⟨?_, ?_, ?_, ?_, ?_⟩
    · constructor <;> simp [reStart, endAt, signed1]
    · constructor <;> simp [reStart, endAt, signed1]
    · intro k _; simp [endAt, reStart, Hidden.fresh]
    · intro k _; simp [endAt, reStart, Hidden.fresh]
    · intro k _; rfl
  have si : SameInputs (fun _ => true) reModel (reInp 3) (reInp 3) := by
    constructor <;> simp [reInp]
  have ins : WithinBounds (fun _ => true) reModel a.cur := by
    intro k _ _ j h1 h2; simp only [reModel] at h2; omega
  have r : BothRun (fun _ => true) reModel rePlan swapModel rePlan reStart reStart a a' :=
    .cons si (reGood 3) ha ha' ins (.nil _ _)
  exact ⟨reStart, a, a', st, r, (re_call reStart_sym (by norm_num) (by norm_num) ha).1.H0,
    C111_direction_partial reSound swapConsistent reTables swapTables swapTurned reStart_sym.good go'.clean st r⟩

/-! ### The counterexample -/

/-- Three level links of unit length between two superjunctions with prescribed heads; `s` says from which end
the superlink is entered. -/
noncomputable def palModel (s : Bool) : Model :=
  { reModel with
    N := 3
    ix := { NK := 1, nk := fun _ => 3, I_1k := fun _ => 0, i_1k := fun _ => 0 }
    nix := { kI := fun _ => 0, fwd := fun I => I, bwd := fun I => I - 1, isStart := fun I => I == 0,
             isEnd := fun I => I == 3 }
    linkEnd := fun i => i == 2
    Ju := fun _ => if s then 1 else 0
    Jd := fun _ => if s then 0 else 1
    max_depth_k := fun _ => 6 / 5
    dx := fun _ => 1
    dx_uk := fun _ => 1
    dx_dk := fun _ => 1
    z_uk := fun _ => 0
    z_dk := fun _ => 0 }

/-- Rectangular channel of height 6/5 and width 1. -/
noncomputable def palPlan : Plan :=
  { rePlan with sec := fun _ => .regular .rectOpen ⟨6 / 5, 1, 0, 0, 0, 0, 0⟩ }

/-- Heads 1 at both ends, lateral inflow 4 at every junction. -/
noncomputable def palInp : Inputs := { reInp 1 with Q_0Ik := fun _ => 4 }

/-- Still water of depth 1. -/
noncomputable def palStart : Obj where
  saved := ⟨fun _ => 1, fun _ => 1, fun _ => 0, fun _ => 0, fun _ => 0, fun _ => 0, fun _ => 0, fun _ => 0⟩
  cur := ⟨fun _ => 1, fun _ => 1, fun _ => 0, fun _ => 0, fun _ => 0, fun _ => 0, fun _ => 0, fun _ => 0⟩
  wk := exWork
  hid := Hidden.fresh fun _ => 0

theorem palConsistent (s : Bool) : (palModel s).Consistent := by
  refine ⟨⟨fun _ _ => ?_, fun k k' h h' hk => ?_, fun k k' h h' hk => ?_⟩, ?_, fun k hk => ⟨?_, ?_, ?_, ?_, ?_⟩,
    ?_, ?_, ?_, ?_, ?_, ?_, ?_, ?_⟩ <;> cases s <;> simp [palModel, reModel] at * <;> try omega

theorem palSound (s : Bool) : Sound (palModel s) palPlan := by
  refine ⟨palConsistent s, ?_, ?_, ?_, ?_, ?_, ?_, ?_, ?_, ?_, ?_, ?_, ?_, ?_, ?_, ?_, ?_⟩
  all_goals first
    | (intros; simp [palModel, palPlan, reModel, rePlan, Section.Usable, Wettable, Valid, Storage.Usable]; done)
    | (norm_num [palModel, palPlan, reModel, rePlan, Section.Usable, Wettable, Valid, Storage.Usable])

theorem palGood (s : Bool) : GoodInputs (palModel s) palPlan palInp := by
  refine ⟨by norm_num [palInp, reInp], fun p hp => by simp [palModel, reModel] at hp,
    fun a ha => by simp [palModel, reModel] at ha⟩

theorem palStartGood (s : Bool) : GoodObj (palModel s) palStart :=
  ⟨⟨⟨fun _ _ _ _ => rfl⟩, ⟨fun _ _ _ _ => rfl, fun _ _ => rfl⟩, ⟨fun _ _ _ _ => rfl, fun _ _ => rfl⟩,
    ⟨fun _ _ _ _ => rfl, fun _ _ => rfl⟩⟩, fun _ => by norm_num [palStart, palModel, reModel]⟩

theorem palTurned : Turned (fun _ => true) (palModel false) palPlan (palModel true) palPlan := by
  constructor <;> simp [palModel, reModel, palPlan, rePlan, endAt, linkAt, nodeAt, signed1]

theorem palSame : SameThing (fun _ => true) (palModel false) palStart palStart := by
  refine ⟨?_, ?_, ?_, ?_, ?_⟩
  · constructor <;> simp [palStart, endAt, signed1]
  · constructor <;> simp [palStart, endAt, signed1]
  · intro k _; simp [endAt, palStart, Hidden.fresh]
  · intro k _; simp [endAt, palStart, Hidden.fresh]
  · intro k _; rfl

theorem palSameInputs : SameInputs (fun _ => true) (palModel false) palInp palInp := by
  constructor <;> simp [palInp, reInp]

/-- The flow of the middle link after a call. -/
theorem palFlow {s : Bool} {a : Obj} (h : Calls1 (palModel s) palPlan true palInp palStart a) :
    0 < a.cur.Q 1 := by
  obtain ⟨Ao, co, x, hA, p, rfl⟩ := h
  have c := palConsistent s
  have ps := physical_geoOf (palSound s) (palGood s) palStart.hid Ao (palStartGood s).wet
  have hk : 0 < (palModel s).ix.NK := by simp [palModel]
  simp only [if_true] at p
  have hH : ∀ i, i < 2 → clipHead (palModel s).z_inv (palModel s).max_depth x i = 1 := by
    intro i hi
    have e := C08_step c (palStartGood s).clean p i hi rfl
    have e' : palInp.H_bc.getD palStart.cur.H i = 1 := rfl
    rw [e'] at e
    have : min (max 1 ((palModel s).z_inv i)) ((palModel s).z_inv i + (palModel s).max_depth i) = 1 := by
      simp only [palModel, reModel]; norm_num
    rw [this] at e; exact e
  have hco := p.coefs
  obtain ⟨hl, hE, hD⟩ := hco
  have hArea : ∀ i, ((palModel s).geoOf palPlan palStart.hid Ao palStart.cur).A i = 1 := by
    intro i
    norm_num [Model.geoOf, palPlan, rePlan, palStart, Section.A, area, rectA, depth, wet]
  have hlink : ∀ i, i < 3 → co.a i = 0 ∧ co.b i = 1 ∧ co.c i = 0 ∧ co.P i = 0 ∧ co.A i = 1 := by
    intro i hi
    obtain ⟨ha, hb, hc, hP, hAr⟩ := hl i hi
    have Q0 : ∀ i, palStart.cur.Q i = 0 := fun _ => rfl
    have hcur : ((palModel s).linkIn ((palModel s).geoOf palPlan palStart.hid Ao palStart.cur) palInp palStart.cur
      palStart.cur).a i = 0 := by
      simp [LinkIn.a, aIk, uIk, uik, Model.linkIn, palModel, reModel, Q0]
    have hcur' : ((palModel s).linkIn ((palModel s).geoOf palPlan palStart.hid Ao palStart.cur) palInp palStart.cur
      palStart.cur).c i = 0 := by
      simp [LinkIn.c, cIk, uIp1k, uik, Model.linkIn, palModel, reModel, Q0]
    refine ⟨ha.trans hcur, ?_, hc.trans hcur', ?_, hAr.trans (hArea i)⟩
    · unfold LinkIn.b bIk at hb
      rw [hcur, hcur'] at hb
      have e1 : ((palModel s).linkIn ((palModel s).geoOf palPlan palStart.hid Ao palStart.cur) palInp palStart.cur
        palStart.cur).A i = 1 := hArea i
      rw [e1] at hb
      have R0 : 0 < ((palModel s).linkIn ((palModel s).geoOf palPlan palStart.hid Ao palStart.cur) palInp
        palStart.cur palStart.cur).R i := ps.R_pos i hi
      have R1 := (Real.rpow_pos_of_pos R0 (4 / 3)).ne'
      simp only [frictionSlope, pyDiv, Model.linkIn, palModel, reModel, palPlan, rePlan, palInp, reInp, Q0,
        Model.geoOf] at hb R1
      simp [R1, Bind.bind, Except.bind, Pure.pure, Except.pure] at hb
      exact hb.symm
    · rw [hP]; simp [LinkIn.P, PIk, Model.linkIn, palModel, reModel, Q0]
  have hBw : ∀ i, ((palModel s).geoOf palPlan palStart.hid Ao palStart.cur).B i = 1 := by
    intro i; simp [Model.geoOf, palPlan, Section.B, topWidth, rectOpenB]
  have hBu : ((palModel s).geoOf palPlan palStart.hid Ao palStart.cur).B_u 0 = 1 := by
    simp [Model.geoOf, palPlan, Section.B, topWidth, rectOpenB, upTo, palModel]
  have hBd : ((palModel s).geoOf palPlan palStart.hid Ao palStart.cur).B_d 0 = 1 := by
    simp [Model.geoOf, palPlan, Section.B, topWidth, rectOpenB, upTo, palModel]
  have d1 : ∀ i, (palModel s).dx i = 1 := fun _ => rfl
  have d2 : ∀ i, (palModel s).dx_uk i = 1 := fun _ => rfl
  have d3 : ∀ i, (palModel s).dx_dk i = 1 := fun _ => rfl
  have d4 : ∀ i, (palModel s).A_S i = 0 := fun _ => rfl
  have d5 : ∀ i, (palModel s).nix.kI i = 0 := fun _ => rfl
  have d6 : palInp.dt = 1 := rfl
  have d7 : ∀ i, palInp.Q_0Ik i = 4 := fun _ => rfl
  have d8 : ∀ i, palStart.cur.h i = 1 := fun _ => rfl
  have hEI : ∀ I, co.E I = 1 := by
    intro I
    rw [hE]
    simp only [nodeE, Model.nodeIn, EIk, hBw, d1, d2, d3, d4, d5, d6, hBu, hBd]
    split_ifs <;> norm_num
  have hDI : ∀ I, co.D I = 5 := by
    intro I
    rw [hD]
    simp only [nodeD, Model.nodeIn, DIk, hBw, d1, d2, d3, d4, d5, d6, d7, d8, hBu, hBd]
    split_ifs <;> norm_num
  -- end depths
  set r := (palModel s).endRec palStart.wk co 0 with hr
  set k := (palModel s).headCoef ((palModel s).geoOf palPlan palStart.hid Ao palStart.cur) palStart.cur 0 with hkdef
  have hsig := step_endSigns (wk := palStart.wk) c ps p.coefs hk
  have hhs := step_headSigns (cur := palStart.cur) ps hk
  have R := C04_end_relations r k 1 1 (by
    have := DkStar_ge_one hsig hhs
    rw [← hr, ← hkdef] at this
    linarith)
  have th : theta (1 : ℝ) 0 = 1 := by norm_num [theta]
  have ku : k.kappa_u = 0 := by
    simp [hkdef, Model.headCoef, headCoefZ, gammaUk, safeDivide_eq, palModel, reModel]
  have kd : k.kappa_d = 0 := by
    simp [hkdef, Model.headCoef, headCoefZ, gammaDk, safeDivide_eq, palModel, reModel]
  have lu : k.lam_u = 1 := by simp [hkdef, Model.headCoef, headCoefZ, palModel, palStart, th]
  have ld : k.lam_d = 1 := by simp [hkdef, Model.headCoef, headCoefZ, palModel, palStart, th]
  have mu : k.mu_u = 0 := by simp [hkdef, Model.headCoef, headCoefZ, palModel]
  have md : k.mu_d = 0 := by simp [hkdef, Model.headCoef, headCoefZ, palModel]
  have hu : huk r k 1 1 = 1 := by
    have := R.upstream; rw [ku, lu, mu] at this; rw [this]; ring
  have hd : hdk r k 1 1 = 1 := by
    have := R.downstream; rw [kd, ld, md] at this; rw [this]; ring
  -- internals
  have I := numbaSolveInternals_spec ((palModel s).fwd palStart.wk co) ((palModel s).bwd palStart.wk co)
    (palModel s).min_depth (palModel s).max_depth_k
    (fun k => huk ((palModel s).endRec palStart.wk co k)
      ((palModel s).headCoef ((palModel s).geoOf palPlan palStart.hid Ao palStart.cur) palStart.cur k)
      (clipHead (palModel s).z_inv (palModel s).max_depth x ((palModel s).Ju k))
      (clipHead (palModel s).z_inv (palModel s).max_depth x ((palModel s).Jd k)))
    (fun k => hdk ((palModel s).endRec palStart.wk co k)
      ((palModel s).headCoef ((palModel s).geoOf palPlan palStart.hid Ao palStart.cur) palStart.cur k)
      (clipHead (palModel s).z_inv (palModel s).max_depth x ((palModel s).Ju k))
      (clipHead (palModel s).z_inv (palModel s).max_depth x ((palModel s).Jd k)))
    (palModel s).ix.i_1k (palModel s).ix.I_1k (palModel s).ix.nk (palModel s).ix.NK (palModel s).back
    ⟨palStart.cur.h, palStart.cur.Q⟩ c.layout 0 hk
  have hJu : clipHead (palModel s).z_inv (palModel s).max_depth x ((palModel s).Ju 0) = 1 :=
    hH _ (by cases s <;> simp [palModel])
  have hJd : clipHead (palModel s).z_inv (palModel s).max_depth x ((palModel s).Jd 0) = 1 :=
    hH _ (by cases s <;> simp [palModel])
  have n3 : (palModel s).ix.nk 0 = 3 := rfl
  have I3 := I.hn
  have IQ2 := I.Qs 2 (by norm_num) (by norm_num) (by rw [n3]; norm_num)
  have Ih2 := I.hs 2 (by norm_num) (by norm_num) (by rw [n3]; norm_num)
  have IQ1 := I.Qs 1 (by norm_num) (by norm_num) (by rw [n3]; norm_num)
  simp only [hJu, hJd, ← hr, ← hkdef, hu, hd] at I3 IQ2 Ih2 IQ1
  have Fw := sweptFwd_rel (palModel s).g co (palModel s).ix palStart.wk.f c.layout hk
  have Bw := sweptBwd_rel (palModel s).g co (palModel s).ix palStart.wk.b c.layout hk
  have g1 : (palModel s).g = 9.81 := rfl
  have j0 : (palModel s).ix.I_1k 0 = 0 := rfl
  have j1 : (palModel s).ix.i_1k 0 = 0 := rfl
  obtain ⟨a0, b0, c0, P0, A0⟩ := hlink 0 (by norm_num)
  obtain ⟨a1, b1, c1, P1, A1⟩ := hlink 1 (by norm_num)
  obtain ⟨a2, b2, c2, P2, A2⟩ := hlink 2 (by norm_num)
  have T0 := Fw.T0
  have U0 := Fw.U0
  have V0 := Fw.V0
  have W0 := Fw.W0
  have T1 := Fw.Ts 0 (by rw [n3]; norm_num)
  have U1 := Fw.Us 0 (by rw [n3]; norm_num)
  have V1 := Fw.Vs 0 (by rw [n3]; norm_num)
  have W1 := Fw.Ws 0 (by rw [n3]; norm_num)
  have T2 := Fw.Ts 1 (by rw [n3]; norm_num)
  have U2 := Fw.Us 1 (by rw [n3]; norm_num)
  have V2 := Fw.Vs 1 (by rw [n3]; norm_num)
  have W2 := Fw.Ws 1 (by rw [n3]; norm_num)
  have On := Bw.On
  have Xn := Bw.Xn
  have Yn := Bw.Yn
  have Zn := Bw.Zn
  simp only [Coef.slice, n3, j0, j1, zero_add, Nat.reduceAdd, Nat.reduceSub, T_1k, U_1k, V_1k, W_1k,
    T_ik, U_Ik, V_Ik, W_Ik, O_nk, X_Nk, Y_Nk, Z_Nk, safeDivide_eq, a0, b0, c0, P0, A0, a1, b1, c1, P1, A1, a2, b2,
    c2, P2, A2, hEI, hDI, g1] at T0 U0 V0 W0 T1 U1 V1 W1 T2 U2 V2 W2 On Xn Yn Zn
  rw [T0] at U0 V0 W0
  rw [U0] at T1 V1 W1
  rw [V0] at V1
  rw [W0] at W1
  rw [T1] at U1 V1 W1
  rw [U1] at T2 V2 W2
  rw [V1] at V2
  rw [W1] at W2
  rw [T2] at U2 V2 W2
  rw [On] at Xn Yn Zn
  simp only [n3, j0, j1, zero_add, Nat.reduceAdd] at I3 IQ2 Ih2 IQ1
  rw [show ((palModel s).fwd palStart.wk co).U 1 = _ from U1, show ((palModel s).fwd palStart.wk co).V 1 = _ from V1,
    show ((palModel s).fwd palStart.wk co).W 1 = _ from W1] at IQ1
  rw [show ((palModel s).fwd palStart.wk co).U 2 = _ from U2, show ((palModel s).fwd palStart.wk co).V 2 = _ from V2,
    show ((palModel s).fwd palStart.wk co).W 2 = _ from W2] at IQ2
  rw [show ((palModel s).bwd palStart.wk co).X 2 = _ from Xn, show ((palModel s).bwd palStart.wk co).Y 2 = _ from Yn,
    show ((palModel s).bwd palStart.wk co).Z 2 = _ from Zn, IQ2, I3] at Ih2
  rw [Ih2] at IQ1
  refine lt_of_lt_of_eq ?_ IQ1.symm
  have m1 : (palModel s).min_depth = 1 / 100 := rfl
  have m2 : (palModel s).max_depth_k 0 = 6 / 5 := rfl
  norm_num [Q_i_f, h_i_b, clipDepth, safeDivide_eq, m1, m2]

/-- **C111, refuted.** There are a sound model, the same model entered from the other end, and one object showing
still water in both, such that a call with the same inputs (equal heads at both ends, equal lateral inflows
everywhere) shows different water: each reports a flow through the middle link in its own downstream
direction. The interior depths reach the section height there. -/
theorem C111_cut_depths_show_the_direction :
    ∃ (m m' : Model) (P : Plan) (inp : Inputs) (o a a' : Obj),
      Sound m P ∧ Sound m' P ∧ Turned (fun _ => true) m P m' P ∧ GoodInputs m P inp ∧ GoodInputs m' P inp ∧
      SameInputs (fun _ => true) m inp inp ∧ GoodObj m o ∧ GoodObj m' o ∧ SameThing (fun _ => true) m o o ∧
      Calls1 m P true inp o a ∧ Calls1 m' P true inp o a' ∧ 0 < a.cur.Q 1 ∧ 0 < a'.cur.Q 1 ∧
      ¬ SameThing (fun _ => true) m a a' := by
  obtain ⟨a, ha⟩ := C105_step_succeeds (palSound false) (palGood false) true (palStartGood false)
  obtain ⟨a', ha'⟩ := C105_step_succeeds (palSound true) (palGood true) true (palStartGood true)
  have q := palFlow ha
  have q' := palFlow ha'
  refine ⟨_, _, _, _, _, a, a', palSound false, palSound true, palTurned, palGood false, palGood true, palSameInputs,
    palStartGood false, palStartGood true, palSame, ha, ha', q, q', fun h => ?_⟩
  have e := h.cur.Q 0 (by simp [palModel]) 1 (by simp [palModel])
  simp only [palModel, signed1, linkAt, if_true] at e
  norm_num at e
  linarith

end Pipedream.Step
