import Verif.OptionModel
import Verif.FloorProps
import Verif.PhysicsProps

/-!
# C151: an option either takes effect or is refused

The strings `method`, `bc_method` and `end_method` of the constructor. A wrong `bc_method` is refused (and the two
classes accept different strings); a wrong `end_method` silently means `'b'`; a wrong `method` silently switches the
computation of depths and flows inside the pipes off.
-/

namespace Pipedream.Step

open Pipedream.Sweep Pipedream.Link Pipedream.Superlink Pipedream.Control Pipedream.Network

noncomputable section

/-- The documented strings (nsuperlink.py 222–226), and the one more which is understood. -/
def KnownMethod (s : String) : Prop := s = "b" ∨ s = "f" ∨ s = "lsq" ∨ s = "nnls"

variable {method em : String} {nnls lsq : Work → Coef ℝ → Hyd → Hyd} {m : Model} {P : Plan}

theorem finish_unknown (hm : ¬ KnownMethod method) (s : Bool → Hyd) (a b new : Hyd) : finish method s a b new = new := by
  unfold KnownMethod at hm
  push Not at hm
  simp only [finish, hm.1, hm.2.1, hm.2.2.1, hm.2.2.2, if_false]

theorem soundOpt (sd : Sound m P) : Sound { m with end_method := endMethodOf em } P :=
  ⟨⟨sd.cons.1, sd.cons.2, sd.cons.3, sd.cons.4, sd.cons.5, sd.cons.6, sd.cons.7, sd.cons.8, sd.cons.9, sd.cons.10,
    sd.cons.11⟩, sd.2, sd.3, sd.4, sd.5, sd.6, sd.7, sd.8, sd.9, sd.10, sd.11, sd.12, sd.13, sd.14, sd.15, sd.16, sd.17⟩

/-! ### Known options -/

/-- **C151 (marching).** With `method='b'` or `'f'` a call is the call modelled in `WholeModel`. -/
theorem C151_marching (first : Bool) (inp : Inputs) (o o' : Obj) :
    (CallsOpt "b" em nnls lsq m P first inp o o'
      ↔ Calls1 { m with end_method := endMethodOf em, back := true } P first inp o o') ∧
    (CallsOpt "f" em nnls lsq m P first inp o o'
      ↔ Calls1 { m with end_method := endMethodOf em, back := false } P first inp o o') := by
  refine ⟨?_, ?_⟩ <;>
  · constructor
    · rintro ⟨Ao, co, x, h1, h2, rfl⟩
      exact ⟨Ao, co, x, h1, ⟨h2.1, h2.2⟩, rfl⟩
    · rintro ⟨Ao, co, x, h1, h2, rfl⟩
      exact ⟨Ao, co, x, h1, ⟨h2.1, h2.2⟩, rfl⟩

/-! ### `end_method` -/

/-- **C151, refuted (`end_method`).** Any string but `'o'` is taken for `'b'`. -/
theorem C151_end_method_ignored (h : em ≠ "o") (first : Bool) (inp : Inputs) (o o' : Obj) :
    CallsOpt method em nnls lsq m P first inp o o' ↔ CallsOpt method "b" nnls lsq m P first inp o o' := by
  have e : endMethodOf em = endMethodOf "b" := by simp [endMethodOf, h]
  unfold CallsOpt
  rw [e]

/-! ### `bc_method` -/

/-- **C151 (`bc_method`, compiled class).** A string is refused at both ends, whatever the data, exactly if it is
neither `'z'` nor `'b'`. -/
theorem C151_bc_refused (bc : String) :
    (∀ d dt g, upstreamHead bc d dt g = .error .valueError ∧ downstreamHead bc d dt g = .error .valueError)
      ↔ bc ≠ "z" ∧ bc ≠ "b" := by
  constructor
  · intro h
    refine ⟨?_, ?_⟩
    · rintro rfl
      have := (h ⟨0, 0, 0, 0, 0, 0, 0, 0, 0, 0, 0⟩ 1 1).1
      simp [upstreamHead] at this
    · rintro rfl
      have := (h ⟨0, 0, 0, 1, 0, 1, 1, 0, 0, 0, 0⟩ 1 1).1
      simp [upstreamHead, kappaUk, frictionSlope, bind, Except.bind, pure, Except.pure, pyDiv] at this
  · rintro ⟨h1, h2⟩ d dt g
    simp [upstreamHead, downstreamHead, h1, h2]

/-- **C151 (`bc_method`, pure-Python class).** There the accepted strings are `'z'` and `'j'`: the only string
which both classes accept is the default. -/
theorem C151_bc_refused_base (bc : String) :
    (∀ (g : ℝ) (u d : Base.End ℝ), Base.heads bc g u d = .error .valueError) ↔ bc ≠ "z" ∧ bc ≠ "j" := by
  constructor
  · intro h
    refine ⟨?_, ?_⟩ <;> rintro rfl <;>
    · have := h 1 ⟨0, 0, 0, 0, 0, 0, 0⟩ ⟨0, 0, 0, 0, 0, 0, 0⟩
      simp [Base.heads] at this
  · rintro ⟨h1, h2⟩ g u d
    simp [Base.heads, h1, h2]

/-! ### `method` -/

/-- A call with an unknown method leaves a good object. -/
theorem goodOpt (hm : ¬ KnownMethod method) {first : Bool} {inp : Inputs} {o o' : Obj} (go : GoodObj m o)
    (r : CallsOpt method em nnls lsq m P first inp o o') : GoodObj m o' := by
  obtain ⟨Ao, co, x, -, -, rfl⟩ := r
  have go' : GoodObj { m with end_method := endMethodOf em } o := ⟨⟨go.1.1, go.1.2, go.1.3, go.1.4⟩, go.2⟩
  have cl := CleanWork.next (m := { m with end_method := endMethodOf em }) (co := co) (inp := inp) (cur := o.cur)
    (geo := Model.geoOf { m with end_method := endMethodOf em } P o.hid Ao o.cur) (wk := o.wk) go'.1
  refine ⟨⟨cl.1, cl.2, cl.3, cl.4⟩, ?_⟩
  rw [finish_unknown hm]
  exact go.2

/-- **C151, refuted (`method`: not refused).** A model with an unknown method runs like any other: every sequence of
calls completes. -/
theorem C151_runs (hm : ¬ KnownMethod method) (sd : Sound m P) (l : List (Bool × Inputs))
    (hl : ∀ q ∈ l, GoodInputs m P q.2) {o : Obj} (go : GoodObj m o) :
    ∃ o', HistoryOpt method em nnls lsq m P l o o' := by
  induction l generalizing o with
  | nil => exact ⟨o, rfl⟩
  | cons q rest ih =>
    have go' : GoodObj { m with end_method := endMethodOf em } o := ⟨⟨go.1.1, go.1.2, go.1.3, go.1.4⟩, go.2⟩
    have gi := hl q (by simp)
    obtain ⟨o1, Ao, co, x, h1, h2, -⟩ := C105_step_succeeds (soundOpt (em := em) sd) (inp := q.2) ⟨gi.1, gi.2, gi.3⟩ q.1 go'
    have hc : CallsOpt method em nnls lsq m P q.1 q.2 o _ := ⟨Ao, co, x, h1, h2, rfl⟩
    obtain ⟨o', r⟩ := ih (fun q' h => hl q' (List.mem_cons_of_mem _ h)) (goodOpt hm go hc)
    exact ⟨o', _, hc, r⟩

/-- **C151, refuted (`method`: no effect).** With an unknown method no run of any length changes a depth or a flow
inside a pipe. -/
theorem C151_frozen (hm : ¬ KnownMethod method) {l : List (Bool × Inputs)} {o a : Obj}
    (r : HistoryOpt method em nnls lsq m P l o a) : a.cur.h = o.cur.h ∧ a.cur.Q = o.cur.Q := by
  induction l generalizing o with
  | nil => rw [r]; exact ⟨rfl, rfl⟩
  | cons q rest ih =>
    obtain ⟨o1, ⟨Ao, co, x, -, -, rfl⟩, r⟩ := r
    obtain ⟨e1, e2⟩ := ih r
    rw [e1, e2, finish_unknown hm]
    exact ⟨rfl, rfl⟩

/-- **C151, refuted (`method`: water lost).** Meanwhile the superjunctions go on exchanging water with the pipes: the
water which the pipes take up, `Qu - Qd` each, and what is supplied to them, is lost. (`C16_volume_change` is the
account of a step with a known method.) -/
theorem C151_water_lost (hm : ¬ KnownMethod method) (sd : Sound m P) {inp : Inputs} (gi : GoodInputs m P inp)
    (hb : ∀ i, i < m.M → m.bc i = false) {o o' : Obj} (go : GoodObj m o)
    (r : CallsOpt method em nnls lsq m P true inp o o')
    (inside : ∀ j, j < m.M → m.z_inv j < o'.cur.H j ∧ o'.cur.H j < m.z_inv j + m.max_depth j) :
    ∃ Ao, volumeChange m (m.geoOf P o.hid Ao o.cur) o.cur o.cur o'.cur
      = inp.dt * ((∑ i ∈ Finset.range m.M, inp.Q_in i) - ∑ k ∈ Finset.range m.ix.NK, (o'.cur.Qu k - o'.cur.Qd k)) := by
  obtain ⟨Ao, co, x, -, p, rfl⟩ := r
  refine ⟨Ao, ?_⟩
  rw [finish_unknown hm] at inside ⊢
  simp only [if_true] at p ⊢
  set m' : Model := { m with end_method := endMethodOf em } with hm'
  have c' : m'.Consistent := (soundOpt (em := em) sd).cons
  have cw : CleanWork m' o.wk.mats := ⟨go.1.1, go.1.2, go.1.3, go.1.4⟩
  have ps0 := physical_geoOf sd gi o.hid Ao (s := o.cur) go.wet
  have hg : m'.geoOf P o.hid Ao o.cur = m.geoOf P o.hid Ao o.cur := rfl
  rw [hg] at p inside ⊢
  generalize hgeo : m.geoOf P o.hid Ao o.cur = geo at p inside ps0 ⊢
  have ps : PhysicalStep m' geo inp := ⟨ps0.1, ps0.2, ps0.3, ps0.4, ps0.5, ps0.6, ps0.7, ps0.8, ps0.9, ps0.10, ps0.11,
    ps0.12, ps0.13, ps0.14, ps0.15, ps0.16, ps0.17, ps0.18, ps0.19⟩
  set next : Hyd := { m'.advance geo inp o.wk o.cur co x with h := o.cur.h, Q := o.cur.Q } with hnext
  have dt0 := ps.dt_pos.ne'
  have hw : Wired (m'.net geo inp o.wk o.cur co) := wired c'
  have lim : ∀ j, j < m'.M → m'.z_inv j ≤ x j ∧ x j ≤ m'.z_inv j + m'.max_depth j := by
    intro j hj
    obtain ⟨h1, h2⟩ := inside j hj
    simp only [hnext, Model.advance, clipHead] at h1 h2
    refine ⟨?_, ?_⟩
    · by_contra hlt
      rw [max_eq_right (not_le.mp hlt).le] at h1
      exact absurd (lt_of_lt_of_le h1 (min_le_left _ _)) (lt_irrefl _)
    · by_contra hgt
      have h3 : m'.z_inv j + m'.max_depth j < max (x j) (m'.z_inv j) := lt_of_lt_of_le (not_le.mp hgt) (le_max_left _ _)
      rw [min_eq_right h3.le] at h2
      exact lt_irrefl _ h2
  have e0 : volumeChange m geo o.cur o.cur next = volumeChange m' geo o.cur o.cur next := rfl
  rw [e0, ← volumeGain_eq (wk := o.wk) (co := co) c' ps]
  have bal : ∀ i ∈ Finset.range m'.M, geo.As i * (next.H i - o.cur.H i)
      + inp.dt * (m'.net geo inp o.wk o.cur co).links.xiSum i * (next.H i - o.cur.H i)
      = inp.dt * (inp.Q_in i + (m'.net geo inp o.wk o.cur co).links.inflow next.H i
        + (m'.net geo inp o.wk o.cur co).orifices.inflow next.H i + (m'.net geo inp o.wk o.cur co).weirs.inflow next.H i
        + (m'.net geo inp o.wk o.cur co).pumps.inflow next.H i) := by
    intro i hi
    have hi := Finset.mem_range.mp hi
    have h := C07_step c' cw p lim i hi (hb i hi)
    have eH : (m'.advance geo inp o.wk o.cur co x).H = next.H := rfl
    rw [eH, Network.Balanced] at h
    rw [← h]
    simp only [Model.net]
    field_simp
  have s1 := Finset.sum_congr rfl bal
  rw [Finset.sum_add_distrib, ← Finset.mul_sum, Finset.sum_add_distrib, Finset.sum_add_distrib,
    Finset.sum_add_distrib, Finset.sum_add_distrib,
    ctrl_inflow_sum _ m'.M hw.ou hw.od, ctrl_inflow_sum _ m'.M hw.wu hw.wd, ctrl_inflow_sum _ m'.M hw.pu hw.pd,
    link_inflow_sum _ m'.M hw.lu hw.ld] at s1
  have zero : ∑ k ∈ Finset.range m'.ix.NK, ∑ j ∈ Finset.range (m'.ix.nk k + 1),
      junctionArea (m'.nodeIn geo inp o.cur) (m'.ix.nk k) (m'.ix.I_1k k) (m'.ix.i_1k k) k j
        * (next.h (m'.ix.I_1k k + j) - o.cur.h (m'.ix.I_1k k + j)) = 0 :=
    Finset.sum_eq_zero fun k _ => Finset.sum_eq_zero fun j _ => by
      have : next.h (m'.ix.I_1k k + j) = o.cur.h (m'.ix.I_1k k + j) := rfl
      rw [this, sub_self, mul_zero]
  rw [volumeGain, s1, zero, add_zero, add_zero, add_zero, add_zero, sub_eq_add_neg, ← Finset.sum_neg_distrib]
  congr 2
  refine Finset.sum_congr rfl fun k _ => ?_
  rw [neg_sub]
  rfl

/-- **C151, refuted (`method`: heads go on).** With an unknown method fixed heads still follow what is prescribed. -/
theorem C151_heads_follow (hm : ¬ KnownMethod method) (c : m.Consistent) {first : Bool} {inp : Inputs} {o o' : Obj}
    (go : GoodObj m o) (r : CallsOpt method em nnls lsq m P first inp o o') (i : ℕ) (hi : i < m.M) (hb : m.bc i = true) :
    o'.cur.H i = min (max (inp.H_bc.getD o.cur.H i) (m.z_inv i)) (m.z_inv i + m.max_depth i) := by
  obtain ⟨Ao, co, x, -, p, rfl⟩ := r
  rw [finish_unknown hm]
  exact C08_step (m := { m with end_method := endMethodOf em })
    ⟨c.1, c.2, c.3, c.4, c.5, c.6, c.7, c.8, c.9, c.10, c.11⟩ ⟨go.1.1, go.1.2, go.1.3, go.1.4⟩ p i hi hb

/-- A channel between two reservoirs, built with `method='backward'`: the reservoirs are raised from 1 m to 2 m and
3 m, the channel keeps its depth of 1 m. -/
example (nnls lsq : Work → Coef ℝ → Hyd → Hyd) : ∃ o e, Built (inModel true) inPlan (inGiven 1) o ∧
    HistoryOpt "backward" "b" nnls lsq (inModel true) inPlan [(true, reInp 2), (true, reInp 3)] o e ∧
    (∀ i, i < 2 → e.cur.H i = 3) ∧ e.cur.h = o.cur.h ∧ e.cur.Q = o.cur.Q := by
  have hm : ¬ KnownMethod "backward" := by unfold KnownMethod; decide
  have wet : ∀ I, (inModel true).min_depth ≤ (inGiven 1).hJ I := fun _ => by norm_num [inModel, reModel, inGiven]
  obtain ⟨o, hb, go, -⟩ := C147_builds (gv := inGiven 1) (inSound true) (inNoRound true) wet
  have key : ∀ H, GoodInputs (inModel true) inPlan (reInp H) := fun H =>
    ⟨(reGood H).dt_pos, fun p hp => by simp [inModel, reModel] at hp, fun a ha => by simp [inModel, reModel] at ha⟩
  obtain ⟨e, r⟩ := C151_runs (em := "b") (nnls := nnls) (lsq := lsq) hm (inSound true) [(true, reInp 2), (true, reInp 3)]
    (fun q hq => by
      rcases List.mem_cons.mp hq with rfl | hq
      · exact key 2
      · rw [List.mem_singleton.mp hq]; exact key 3) go
  refine ⟨o, e, hb, r, fun i hi => ?_, C151_frozen hm r⟩
  obtain ⟨o1, r1, o2, r2, e2⟩ := r
  rw [e2, C151_heads_follow hm (inConsistent true) (goodOpt hm go r1) r2 i hi rfl]
  norm_num [inModel, reModel, reInp]

/-- Still water satisfies what `C151_water_lost` asks for: a channel between two superjunctions, none of them fixed,
with 1 m of water everywhere. -/
example (nnls lsq : Work → Coef ℝ → Hyd → Hyd) : ∃ o',
    CallsOpt "backward" "b" nnls lsq (inModel false) inPlan true (reInp 1) ((inModel false).blank (inGiven 1)) o' ∧
    (∀ j, j < 2 → (0 : ℝ) < o'.cur.H j ∧ o'.cur.H j < 10) ∧ ∃ Ao, volumeChange (inModel false)
      ((inModel false).geoOf inPlan ((inModel false).blank (inGiven 1)).hid Ao ((inModel false).blank (inGiven 1)).cur)
        ((inModel false).blank (inGiven 1)).cur ((inModel false).blank (inGiven 1)).cur o'.cur
      = -(o'.cur.Qu 0 - o'.cur.Qd 0) := by
  have hm : ¬ KnownMethod "backward" := by unfold KnownMethod; decide
  have gi : GoodInputs (inModel false) inPlan (reInp 1) :=
    ⟨(reGood 1).dt_pos, fun p hp => by simp [inModel, reModel] at hp, fun a ha => by simp [inModel, reModel] at ha⟩
  have go : GoodObj (inModel false) ((inModel false).blank (inGiven 1)) :=
    blankGood fun _ => by norm_num [inModel, reModel, inGiven]
  obtain ⟨o', o1, r, e⟩ := C151_runs (em := "b") (nnls := nnls) (lsq := lsq) hm (inSound false) [(true, reInp 1)]
    (fun q hq => by rw [List.mem_singleton.mp hq]; exact gi) go
  have inside : ∀ j, j < 2 → (0 : ℝ) < o1.cur.H j ∧ o1.cur.H j < 10 := by
    have r' := r
    obtain ⟨Ao, co, x, -, p, e1⟩ := r'
    have hs : Still (inModel false) (fun _ => 0) 1 ((inModel false).blank (inGiven 1)).cur := by
      refine ⟨?_, ?_, ?_, ?_, ?_, ?_, ?_, ?_⟩ <;> norm_num [Model.blank, Model.start, inModel, reModel, inGiven]
    have bed : Bed (inModel false) fun _ => 0 := by
      refine ⟨?_, ?_, ?_⟩ <;> norm_num [inModel, reModel]
    have si : StillInputs (inModel false) (reInp 1) (fun _ => 0) 1 := by
      refine ⟨?_, ?_, ?_, ?_, ?_, ?_, ?_⟩ <;> norm_num [inModel, reModel, reInp]
    have ps := physical_geoOf (inSound false) gi ((inModel false).blank (inGiven 1)).hid Ao
      (s := ((inModel false).blank (inGiven 1)).cur) go.wet
    have st := C14_still_water_partial (inConsistent false) ps go.1 bed si hs hs p
    intro j hj
    have h1 := st.H j hj
    rw [e1, finish_unknown hm]
    refine ⟨?_, ?_⟩
    · refine lt_of_lt_of_eq one_pos h1.symm
    · refine lt_of_eq_of_lt h1 (by norm_num)
  refine ⟨o1, r, inside, ?_⟩
  obtain ⟨Ao, h⟩ := C151_water_lost hm (inSound false) gi (fun _ _ => rfl) go r
    (fun j hj => by simpa [inModel, reModel] using inside j hj)
  refine ⟨Ao, h.trans ?_⟩
  simp [reInp, inModel, reModel]

end

end Pipedream.Step
