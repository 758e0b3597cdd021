import Verif.WholeProps

/-!
# C41: a repeated step need not reproduce the first result

A superlink whose ends carry storage (`dx_uk > 0`), with a section whose width depends on depth. A step
raises the superjunction heads above the end inverts. The next step, and the same step repeated after
loading the state it started from, report different end flows: the first one still uses the switches
`_theta_uk` of the time before, which `load_state` does not restore.
-/

namespace Pipedream.Step

open Pipedream.Sweep Pipedream.Link Pipedream.Superlink Pipedream.Control Pipedream.Network
open Pipedream.Geometry Pipedream.Interp

/-- One link between two superjunctions with prescribed heads; inverts of the ends 1 above the bottom. -/
noncomputable def reModel : Model where
  g := 9.81
  N := 1
  M := 2
  ix := { NK := 1, nk := fun _ => 1, I_1k := fun _ => 0, i_1k := fun _ => 0 }
  nix := { kI := fun _ => 0, fwd := fun I => I, bwd := fun I => I - 1, isStart := fun I => I == 0,
           isEnd := fun I => I == 1 }
  linkStart := fun i => i == 0
  linkEnd := fun i => i == 0
  bc := fun _ => true
  Ju := fun _ => 0
  Jd := fun _ => 1
  z_inv := fun _ => 0
  max_depth := fun _ => 10
  min_depth := 1 / 100
  max_depth_k := fun _ => 8
  dx := fun _ => 10
  n := fun _ => 1 / 100
  A_c := fun _ => 1
  C := fun _ => 0
  ctrl := fun _ => false
  method := fun _ => 0
  S_o := fun _ => 0
  A_S := fun _ => 0
  dx_uk := fun _ => 2
  dx_dk := fun _ => 2
  z_uk := fun _ => 1
  z_dk := fun _ => 1
  C_uk := fun _ => 0
  C_dk := fun _ => 0
  end_method := .b
  back := true
  n_o := 0
  Juo := fun _ => 0
  Jdo := fun _ => 1
  orifice := fun _ => ⟨0, 0, 1, 1, false⟩
  Co := fun _ => 0
  n_w := 0
  Juw := fun _ => 0
  Jdw := fun _ => 1
  weir := fun _ => ⟨1, 0, 1, 1, 1, 1, 1⟩
  n_p := 0
  Jup := fun _ => 0
  Jdp := fun _ => 1
  pump := fun _ => ⟨0, 0, 5, 0, 5, 1, 1⟩

/-- A triangular channel of height 8 with side slope 1. -/
noncomputable def rePlan : Plan where
  eps := 1
  ell := fun _ _ _ => 1
  sec := fun _ => .regular .triangular ⟨8, 1, 0, 0, 0, 0, 0⟩
  Ik := fun i => i
  storage := fun _ => .functional 0 0 1
  oShape := fun _ => .rectOpen
  oGP := fun _ => ⟨1, 1, 0, 0, 0, 0, 0⟩
  damp := false

/-- Prescribed heads `Hb` at both ends, step size 1, no inflows. -/
noncomputable def reInp (Hb : ℝ) : Inputs where
  dt := 1
  H_bc := some fun _ => Hb
  Q_in := fun _ => 0
  Q_0Ik := fun _ => 0
  u_o := fun _ => 0
  u_w := fun _ => 0
  u_p := fun _ => 0

theorem reConsistent : reModel.Consistent := by
  refine ⟨⟨fun _ _ => ?_, fun k k' h h' hk => ?_, fun k k' h h' hk => ?_⟩, ?_, fun k hk => ⟨?_, ?_, ?_, ?_, ?_⟩,
    ?_, ?_, ?_, ?_, ?_, ?_, ?_, ?_⟩ <;> simp [reModel] at * <;> try omega

theorem reSound : Sound reModel rePlan := by
  refine ⟨reConsistent, ?_, ?_, ?_, ?_, ?_, ?_, ?_, ?_, ?_, ?_, ?_, ?_, ?_, ?_, ?_, ?_⟩
  all_goals first
    | (intros; simp [reModel, rePlan, Section.Usable, Wettable, Valid, Storage.Usable]; done)
    | norm_num [reModel, rePlan]

theorem reGood (Hb : ℝ) : GoodInputs reModel rePlan (reInp Hb) := by
  refine ⟨by norm_num [reInp], fun p hp => by simp [reModel] at hp, fun a ha => by simp [reModel] at ha⟩

/-- Objects symmetric in the two ends, at rest. -/
structure ReSym (o : Obj) (Hc hp : ℝ) : Prop where
  good : GoodObj reModel o
  H0 : o.cur.H 0 = Hc
  H1 : o.cur.H 1 = Hc
  h0 : o.cur.h 0 = hp
  h1 : o.cur.h 1 = hp
  Q : o.cur.Q 0 = 0

/-- Width at the upstream end in such a state with the switch `th`. -/
noncomputable def reWidth (hp th Hc : ℝ) : ℝ := triangularB hp (th * (Hc - 1)) 8 1

/-- What a call does to such an object. -/
theorem re_call {o o1 : Obj} {Hc hp Hb : ℝ} (s : ReSym o Hc hp) (hb0 : 0 ≤ Hb) (hb1 : Hb ≤ 10)
    (h : Calls1 reModel rePlan true (reInp Hb) o o1) :
    ReSym o1 Hb (max (theta Hc 1 * (Hb - 1)) (1 / 100)) ∧ o1.hid.thu 0 = theta Hc 1 ∧
    o1.cur.Qu 0 = (triangularB hp hp 8 1 * 5 + reWidth hp (o.hid.thu 0) Hc) * (theta Hc 1 * (Hb - 1) - hp) := by
  have gn := s.good.next reConsistent h
  obtain ⟨Ao, co, x, hA, p, rfl⟩ := h
  have c := reConsistent
  have ps := physical_geoOf reSound (reGood Hb) o.hid Ao s.good.wet
  have hk : 0 < reModel.ix.NK := by simp [reModel]
  simp only [if_true] at p
  -- heads
  have hH : ∀ i, i < 2 → clipHead reModel.z_inv reModel.max_depth x i = Hb := by
    intro i hi
    have e := C08_step c s.good.clean p i hi rfl
    have e' : (reInp Hb).H_bc.getD o.cur.H i = Hb := rfl
    rw [e'] at e
    have : min (max Hb (reModel.z_inv i)) (reModel.z_inv i + reModel.max_depth i) = Hb := by
      simp only [reModel]; rw [max_eq_left hb0, min_eq_left (by linarith)]
    rw [this] at e; exact e
  -- coefficients
  have hco := p.coefs
  have ph := physical c ps hco hk
  obtain ⟨hl, hE, hD⟩ := hco
  obtain ⟨ha, hb, hc, hP, hAr⟩ := hl 0 (by simp [reModel])
  have ha' : co.a 0 = 0 := by
    rw [ha]; simp [LinkIn.a, aIk, uIk, uik, Model.linkIn, reModel, s.Q]
  have hc' : co.c 0 = 0 := by
    rw [hc]; simp [LinkIn.c, cIk, uIp1k, uik, Model.linkIn, reModel, s.Q]
  have hP' : co.P 0 = 0 := by
    rw [hP]; simp [LinkIn.P, PIk, Model.linkIn, reModel, s.Q]
  have hE0 : co.E 0 = triangularB hp hp 8 1 * 5 + reWidth hp (o.hid.thu 0) Hc := by
    rw [hE]
    simp only [nodeE, Model.nodeIn, EIk, Model.geoOf, upTo, reWidth]
    simp [reModel, rePlan, reInp, s.h0, s.h1, s.H0, Section.B, topWidth]
    ring
  have hD0 : co.D 0 = (triangularB hp hp 8 1 * 5 + reWidth hp (o.hid.thu 0) Hc) * hp := by
    rw [hD]
    simp only [nodeD, Model.nodeIn, DIk, Model.geoOf, upTo, reWidth]
    simp [reModel, rePlan, reInp, s.h0, s.h1, s.H0, Section.B, topWidth]
    left; ring
  have hbp : 0 < co.b 0 := by
    have := ph.abc_pos 0 (by simp [reModel])
    simp only [Coef.slice, reModel, add_zero] at this
    rw [ha', hc'] at this; linarith
  -- sweeps
  have B := sweptBwd_rel reModel.g co reModel.ix o.wk.b c.layout hk
  have F := sweptFwd_rel reModel.g co reModel.ix o.wk.f c.layout hk
  have hO := B.On
  have hX := B.Xn
  have hY := B.Yn
  have hZ := B.Zn
  simp only [reModel, Coef.slice, O_nk, X_Nk, Y_Nk, Z_Nk, ha', hc', hP', safeDivide_eq, Nat.sub_self, add_zero,
    zero_add, mul_zero, sub_zero, zero_div, zero_sub] at hO hX hY hZ
  rw [hO] at hX hZ
  -- head coefficients
  set r := reModel.endRec o.wk co 0 with hr
  set k := reModel.headCoef (reModel.geoOf rePlan o.hid Ao o.cur) o.cur 0 with hkdef
  have hsig := step_endSigns (wk := o.wk) c ps p.coefs hk
  have hhs := step_headSigns (cur := o.cur) ps hk
  have R := C04_end_relations r k Hb Hb (by
    have := DkStar_ge_one hsig hhs
    rw [← hr, ← hkdef] at this
    linarith)
  have ku : k.kappa_u = 0 := by simp [hkdef, Model.headCoef, headCoefZ, gammaUk, safeDivide_eq, reModel]
  have kd : k.kappa_d = 0 := by simp [hkdef, Model.headCoef, headCoefZ, gammaDk, safeDivide_eq, reModel]
  have lu : k.lam_u = theta Hc 1 := by simp [hkdef, Model.headCoef, headCoefZ, reModel, s.H0]
  have ld : k.lam_d = theta Hc 1 := by simp [hkdef, Model.headCoef, headCoefZ, reModel, s.H1]
  have mu : k.mu_u = -theta Hc 1 := by simp [hkdef, Model.headCoef, headCoefZ, reModel, s.H0]
  have md : k.mu_d = -theta Hc 1 := by simp [hkdef, Model.headCoef, headCoefZ, reModel, s.H1]
  have hu : huk r k Hb Hb = theta Hc 1 * (Hb - 1) := by
    have := R.upstream; rw [ku, lu, mu] at this; rw [this]; ring
  have hd : hdk r k Hb Hb = theta Hc 1 * (Hb - 1) := by
    have := R.downstream; rw [kd, ld, md] at this; rw [this]; ring
  have rX : r.X = reModel.g * co.A 0 / co.b 0 + co.E 0 := by
    rw [hr]; simp only [Model.endRec, Superlink.endRec]
    simp only [reModel, Coef.slice, add_zero] at *
    simp only [Model.bwd]; rw [hX]
  have rY : r.Y = - co.D 0 := by
    rw [hr]; simp only [Model.endRec, Superlink.endRec]
    simp only [reModel, Coef.slice, add_zero] at *
    simp only [Model.bwd]; rw [hY]; ring
  have rZ : r.Z = -(reModel.g * co.A 0) / co.b 0 := by
    rw [hr]; simp only [Model.endRec, Superlink.endRec]
    simp only [reModel, Coef.slice, add_zero] at *
    simp only [Model.bwd]; rw [hZ]
  -- internals
  have I := numbaSolveInternals_spec (reModel.fwd o.wk co) (reModel.bwd o.wk co) reModel.min_depth
    reModel.max_depth_k
    (fun k => huk (reModel.endRec o.wk co k) (reModel.headCoef (reModel.geoOf rePlan o.hid Ao o.cur) o.cur k)
      (clipHead reModel.z_inv reModel.max_depth x (reModel.Ju k))
      (clipHead reModel.z_inv reModel.max_depth x (reModel.Jd k)))
    (fun k => hdk (reModel.endRec o.wk co k) (reModel.headCoef (reModel.geoOf rePlan o.hid Ao o.cur) o.cur k)
      (clipHead reModel.z_inv reModel.max_depth x (reModel.Ju k))
      (clipHead reModel.z_inv reModel.max_depth x (reModel.Jd k)))
    reModel.ix.i_1k reModel.ix.I_1k reModel.ix.nk reModel.ix.NK reModel.back ⟨o.cur.h, o.cur.Q⟩ c.layout 0 hk
  have hJu : reModel.Ju 0 = 0 := rfl
  have hJd : reModel.Jd 0 = 1 := rfl
  have I0 := I.h0
  have I1 := I.hn
  have IQ := I.Q0
  simp only [hJu, hJd, hH 0 (by norm_num), hH 1 (by norm_num), ← hr, ← hkdef, hu, hd] at I0 I1 IQ
  have mx : ∀ v : ℝ, (if v < reModel.min_depth then reModel.min_depth else v) = max v (1 / 100) := by
    intro v
    have : reModel.min_depth = 1 / 100 := rfl
    rw [this]
    split_ifs with hv
    · rw [max_eq_right hv.le]
    · rw [max_eq_left (not_lt.mp hv)]
  refine ⟨⟨gn, hH 0 (by norm_num), hH 1 (by norm_num), ?_, ?_, ?_⟩, ?_, ?_⟩
  · rw [← I0]; exact mx _
  · rw [← I1]; exact mx _
  · have e : reModel.back = true := rfl
    rw [e, if_pos rfl] at IQ
    refine IQ.trans ?_
    simp only [Q_i_b]
    have x0 : (reModel.bwd o.wk co).X (reModel.ix.I_1k 0 + 0) = reModel.g * co.A 0 / co.b 0 := hX
    have y0 : (reModel.bwd o.wk co).Y (reModel.ix.I_1k 0 + 0) = 0 := hY
    have z0 : (reModel.bwd o.wk co).Z (reModel.ix.I_1k 0 + 0) = -(reModel.g * co.A 0) / co.b 0 := hZ
    rw [x0, y0, z0]; ring
  · simp [Model.nextHidden, upTo, reModel, s.H0]
  · show Quk r k _ _ = _
    rw [hJu, hJd, hH 0 (by norm_num), hH 1 (by norm_num), R.backward, hu, hd, rX, rY, rZ, hE0, hD0]
    ring

/-- The initial object: water below the end inverts, minimum depth in the link, at rest. -/
noncomputable def reStart : Obj where
  saved := ⟨fun _ => 1 / 2, fun _ => 1 / 100, fun _ => 0, fun _ => 0, fun _ => 0, fun _ => 0, fun _ => 0,
    fun _ => 0⟩
  cur := ⟨fun _ => 1 / 2, fun _ => 1 / 100, fun _ => 0, fun _ => 0, fun _ => 0, fun _ => 0, fun _ => 0,
    fun _ => 0⟩
  wk := exWork
  hid := Hidden.fresh fun _ => 0

theorem reStart_sym : ReSym reStart (1 / 2) (1 / 100) := by
  refine ⟨⟨?_, fun _ => ?_⟩, rfl, rfl, rfl, rfl, rfl⟩
  · exact ⟨⟨fun _ _ _ _ => rfl⟩, ⟨fun _ _ _ _ => rfl, fun _ _ => rfl⟩, ⟨fun _ _ _ _ => rfl, fun _ _ => rfl⟩,
      ⟨fun _ _ _ _ => rfl, fun _ _ => rfl⟩⟩
  · simp [reStart, reModel]

theorem re_attempt {inp : Inputs} {o o1 : Obj} {Hc hp : ℝ} (s : ReSym o Hc hp)
    (h : Calls1 reModel rePlan true inp o o1) :
    GoodObj reModel o1 ∧ o1.hid.thu 0 = theta Hc 1 := by
  refine ⟨s.good.next reConsistent h, ?_⟩
  obtain ⟨Ao, co, x, -, -, rfl⟩ := h
  simp [Model.nextHidden, upTo, reModel, s.H0]

/-- **C41, refuted.** There are a sound model, good inputs and a good object `o` (it has made one step) such
that the accepted step from `o` and the same step after an attempt with twice the step size was undone by
loading the state of `o` report different end flows. -/
theorem C41_retry_differs :
    ∃ (m : Model) (P : Plan) (inp0 inp : Inputs) (o0 o t a a' : Obj), Sound m P ∧ GoodInputs m P inp0 ∧
      GoodInputs m P inp ∧ GoodInputs m P { inp with dt := 2 * inp.dt } ∧ GoodObj m o0 ∧
      Calls1 m P true inp0 o0 o ∧
      Calls1 m P true inp o a ∧
      Calls1 m P true { inp with dt := 2 * inp.dt } o t ∧ Calls1 m P true inp (t.load o.cur) a' ∧
      0 < m.ix.NK ∧ a.cur.Qu 0 ≠ a'.cur.Qu 0 := by
  have s0 := reStart_sym
  have g2 : GoodInputs reModel rePlan { reInp 4 with dt := 2 * (reInp 4).dt } :=
    ⟨by norm_num [reInp], fun p hp => by simp [reModel] at hp, fun a ha => by simp [reModel] at ha⟩
  obtain ⟨o, ho⟩ := C105_step_succeeds reSound (reGood 3) true s0.good
  obtain ⟨s1, t1, -⟩ := re_call s0 (by norm_num) (by norm_num) ho
  obtain ⟨a, ha⟩ := C105_step_succeeds reSound (reGood 4) true s1.good
  obtain ⟨-, -, q2⟩ := re_call s1 (by norm_num) (by norm_num) ha
  obtain ⟨t, ht⟩ := C105_step_succeeds reSound g2 true s1.good
  obtain ⟨gt, t2⟩ := re_attempt s1 ht
  have s1' : ReSym (t.load o.cur) 3 (max (theta (1 / 2) 1 * (3 - 1)) (1 / 100)) :=
    ⟨⟨gt.clean, s1.good.wet⟩, s1.H0, s1.H1, s1.h0, s1.h1, s1.Q⟩
  obtain ⟨a', ha'⟩ := C105_step_succeeds reSound (reGood 4) true s1'.good
  obtain ⟨-, -, q3⟩ := re_call s1' (by norm_num) (by norm_num) ha'
  refine ⟨reModel, rePlan, reInp 3, reInp 4, reStart, o, t, a, a', reSound, reGood 3, reGood 4, g2, s0.good, ho,
    ha, ht, ha', by simp [reModel], ?_⟩
  have e : (t.load o.cur).hid.thu 0 = theta 3 1 := t2
  rw [q2, q3, t1, e]
  norm_num [theta, reWidth, triangularB, wet]

/-- A case for the hypotheses of `C105`: the model above is sound, the inputs are good, the start is good,
and a history of two calls with different heads succeeds. -/
example : ∃ o, History reModel rePlan [(true, reInp 3), (false, reInp 4)] reStart o := by
  obtain ⟨o, h, -⟩ := C105_every_history_succeeds reSound [(true, reInp 3), (false, reInp 4)] (fun q hq => by
    simp only [List.mem_cons, List.not_mem_nil, or_false] at hq
    rcases hq with rfl | rfl
    · exact reGood 3
    · exact reGood 4) reStart_sym.good
  exact ⟨o, h⟩

end Pipedream.Step
