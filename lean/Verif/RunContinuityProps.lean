import Verif.StepContinuityProps
import Verif.SectionContinuityProps
import Verif.ControlContinuityProps
import Verif.TableContinuityProps
import Verif.WholeProps
import Verif.InitialProps

/-!
# C178: calls and runs depend continuously on the object they start from
-/

namespace Pipedream.Step

open Filter Topology
open Pipedream.Sweep Pipedream.Link Pipedream.Superlink Pipedream.Control Pipedream.Network
open Pipedream.Geometry Pipedream.Interp

variable {ι : Type*} {l : Filter ι}

/-! ### Specification -/

/-- The objects tend to `o`: saved and current state, flows of controls, switches and orifice areas. Scratch arrays need not
converge. -/
structure ObjTo (m : Model) (l : Filter ι) (oN : ι → Obj) (o : Obj) : Prop where
  saved : StateTo m l (fun t => (oN t).saved) o.saved
  cur : StateTo m l (fun t => (oN t).cur) o.cur
  Qo : ∀ a, a < m.n_o → Tendsto (fun t => (oN t).cur.Qo a) l (𝓝 (o.cur.Qo a))
  Qw : ∀ a, a < m.n_w → Tendsto (fun t => (oN t).cur.Qw a) l (𝓝 (o.cur.Qw a))
  Qp : ∀ a, a < m.n_p → Tendsto (fun t => (oN t).cur.Qp a) l (𝓝 (o.cur.Qp a))
  thu : ∀ k, k < m.ix.NK → Tendsto (fun t => (oN t).hid.thu k) l (𝓝 (o.hid.thu k))
  thd : ∀ k, k < m.ix.NK → Tendsto (fun t => (oN t).hid.thd k) l (𝓝 (o.hid.thd k))
  Ao : ∀ a, a < m.n_o → Tendsto (fun t => (oN t).hid.Ao a) l (𝓝 (o.hid.Ao a))

/-- An orifice flowing away from its thresholds, or dry, or a one-way orifice with the higher water behind it. -/
def CalmOrifice (Q Hu Hd u : ℝ) (o : Orifice) : Prop :=
  AwayOrifice Q Hu Hd u o ∨ (max Hu Hd < o.z_o + o.z_inv ∧ max Hu Hd < o.z_o + o.z_inv + o.tau * o.y_max * u) ∨
    (o.unidir = true ∧ Hu < Hd)

/-- A weir flowing away from its thresholds, or dry. -/
def CalmWeir (Q Hu Hd u : ℝ) (w : Weir) : Prop :=
  AwayWeir Q Hu Hd u w ∨ max Hu Hd < w.z_w + w.z_inv + (1 - u) * w.y_max

/-- A pump running away from its thresholds, or with its inlet dry. -/
def CalmPump (Q Hu Hd : ℝ) (p : Pump) : Prop := AwayPump Q Hu Hd p ∨ Hu < p.z_inv + p.z_p

/-- The geometry has no jump at the state of the object: no level exactly at the invert of a pipe end, sections, storages and
orifice openings continuous where the water stands, and pipe ends wet. -/
structure Smooth (m : Model) (P : Plan) (inp : Inputs) (o : Obj) : Prop where
  up : ∀ k, k < m.ix.NK → o.cur.H (m.Ju k) ≠ m.z_uk k
  down : ∀ k, k < m.ix.NK → o.cur.H (m.Jd k) ≠ m.z_dk k
  sec : ∀ k, k < m.ix.NK → ∀ j, j < m.ix.nk k →
    ContinuousAt (fun h : ℝ × ℝ => (P.sec (m.ix.i_1k k + j)).A h.1 h.2) (o.cur.h (m.ix.I_1k k + j), o.cur.h (m.ix.I_1k k + j + 1)) ∧
    ContinuousAt (fun h : ℝ × ℝ => (P.sec (m.ix.i_1k k + j)).R P.eps P.ell h.1 h.2)
      (o.cur.h (m.ix.I_1k k + j), o.cur.h (m.ix.I_1k k + j + 1)) ∧
    ContinuousAt (fun h : ℝ × ℝ => (P.sec (m.ix.i_1k k + j)).B h.1 h.2) (o.cur.h (m.ix.I_1k k + j), o.cur.h (m.ix.I_1k k + j + 1))
  first : ∀ k, k < m.ix.NK →
    ContinuousAt (fun h : ℝ × ℝ => (P.sec (m.ix.i_1k k)).A h.1 h.2)
      (o.cur.h (m.ix.I_1k k), o.hid.thu k * (o.cur.H (m.Ju k) - m.z_uk k)) ∧
    ContinuousAt (fun h : ℝ × ℝ => (P.sec (m.ix.i_1k k)).B h.1 h.2)
      (o.cur.h (m.ix.I_1k k), o.hid.thu k * (o.cur.H (m.Ju k) - m.z_uk k)) ∧
    (P.sec (m.ix.i_1k k)).A (o.cur.h (m.ix.I_1k k)) (o.hid.thu k * (o.cur.H (m.Ju k) - m.z_uk k)) ≠ 0
  last : ∀ k, k < m.ix.NK →
    ContinuousAt (fun h : ℝ × ℝ => (P.sec (m.ix.i_1k k + m.ix.nk k - 1)).A h.1 h.2)
      (o.cur.h (m.ix.I_1k k + m.ix.nk k), o.hid.thd k * (o.cur.H (m.Jd k) - m.z_dk k)) ∧
    ContinuousAt (fun h : ℝ × ℝ => (P.sec (m.ix.i_1k k + m.ix.nk k - 1)).B h.1 h.2)
      (o.cur.h (m.ix.I_1k k + m.ix.nk k), o.hid.thd k * (o.cur.H (m.Jd k) - m.z_dk k)) ∧
    (P.sec (m.ix.i_1k k + m.ix.nk k - 1)).A (o.cur.h (m.ix.I_1k k + m.ix.nk k)) (o.hid.thd k * (o.cur.H (m.Jd k) - m.z_dk k)) ≠ 0
  storage : ∀ j, j < m.M → ContinuousAt (P.storage j).A (storageDepth (o.cur.H j) (m.z_inv j) m.min_depth) ∧
    ContinuousAt (P.storage j).V (storageDepth (o.cur.H j) (m.z_inv j) m.min_depth)
  opening : ∀ a, a < m.n_o → P.oShape a ≠ .floodplain →
    ContinuousAt (fun h => area (P.oShape a) { P.oGP a with g1 := (P.oGP a).g1 * inp.u_o a } h h) (m.orificeDepth o.cur a)

/-- No control is at a threshold. -/
structure NoThreshold (m : Model) (inp : Inputs) (s : Hyd) : Prop where
  orifice : ∀ a, a < m.n_o → CalmOrifice (s.Qo a) (s.H (m.Juo a)) (s.H (m.Jdo a)) (inp.u_o a) (m.orifice a)
  weir : ∀ a, a < m.n_w → CalmWeir (s.Qw a) (s.H (m.Juw a)) (s.H (m.Jdw a)) (inp.u_w a) (m.weir a)
  pump : ∀ a, a < m.n_p → CalmPump (s.Qp a) (s.H (m.Jup a)) (s.H (m.Jdp a)) (m.pump a)

/-- A call away from every threshold, before and after. -/
structure AwayCall (m : Model) (P : Plan) (inp : Inputs) (o o1 : Obj) : Prop where
  smooth : Smooth m P inp o
  before : NoThreshold m inp o.cur
  after : NoThreshold m inp o1.cur

/-- A sequence of calls, each away from every threshold. -/
def AwayRun (m : Model) (P : Plan) : List (Bool × Inputs) → Obj → Obj → Prop
  | [], o, o' => o' = o
  | q :: rest, o, o' => ∃ o1, Calls1 m P q.1 q.2 o o1 ∧ AwayCall m P q.2 o o1 ∧ AwayRun m P rest o1 o'

/-- It is a sequence of calls. -/
theorem AwayRun.history {m : Model} {P : Plan} : ∀ {qs : List (Bool × Inputs)} {o o' : Obj}, AwayRun m P qs o o' → History m P qs o o'
  | [], _, _, h => h
  | _ :: _, _, _, ⟨o1, h, _, r⟩ => ⟨o1, h, AwayRun.history r⟩

/-! ### Controls -/

theorem dry_to {f : ι → ℝ} {a b : ℝ} (cf : Tendsto f l (𝓝 a)) (h : a < b) : ∀ᶠ t in l, ¬ f t > b := by
  filter_upwards [cf.eventually_lt_const h] with t ht
  exact not_lt.mpr ht.le

/-- Relation of a calm orifice, for any coefficient that converges if water flows. -/
theorem calmCoef_to {oldN : ι → Lin} {γN HuN HdN : ι → ℝ} {old : Lin} {γ Q Hu Hd u : ℝ} {o : Orifice}
    (cγ : Q ≠ 0 → Tendsto γN l (𝓝 γ)) (cHu : Tendsto HuN l (𝓝 Hu)) (cHd : Tendsto HdN l (𝓝 Hd)) (aw : CalmOrifice Q Hu Hd u o) :
    LinTo l (fun t => orificeCoef (oldN t) (γN t) (HuN t) (HdN t) u o) (orificeCoef old γ Hu Hd u o) := by
  rcases aw with aw | ⟨d1, d2⟩ | ⟨un, lt⟩
  · exact orificeCoef_to (cγ aw.Q) cHu cHd tendsto_const_nhds aw
  · have z : ∀ (old : Lin) (γ Hu Hd : ℝ), ¬ max Hu Hd > o.z_o + o.z_inv → ¬ max Hu Hd > o.z_o + o.z_inv + o.tau * o.y_max * u →
        orificeCoef old γ Hu Hd u o = ⟨0, 0, 0⟩ := by
      intro old γ Hu Hd h1 h2
      rw [orificeCoef_by, upper_eq, orificeBy, if_pos (Or.inl ⟨h2, h1⟩)]
    rw [z old γ Hu Hd (not_lt.mpr d1.le) (not_lt.mpr d2.le)]
    refine (LinTo.const _).congr ?_
    filter_upwards [dry_to (cHu.max cHd) d1, dry_to (cHu.max cHd) d2] with t h1 h2
    exact z _ _ _ _ h1 h2
  · have z : ∀ (old : Lin) (γ Hu Hd : ℝ), Hd ≥ Hu → orificeCoef old γ Hu Hd u o = ⟨0, 0, 0⟩ := by
      intro old γ Hu Hd h1
      rw [orificeCoef_by, orificeBy, if_pos (Or.inr ⟨h1, un⟩)]
    rw [z old γ Hu Hd lt.le]
    refine (LinTo.const _).congr ?_
    filter_upwards [cHu.eventually_lt cHd lt] with t ht
    exact z _ _ _ _ ht.le

theorem calmWeir_to {oldN : ι → Lin} {QN HuN HdN : ι → ℝ} {old : Lin} {Q Hu Hd u : ℝ} {w : Weir}
    (cQ : Tendsto QN l (𝓝 Q)) (cHu : Tendsto HuN l (𝓝 Hu)) (cHd : Tendsto HdN l (𝓝 Hd)) (aw : CalmWeir Q Hu Hd u w) :
    LinTo l (fun t => weirLin (oldN t) (QN t) (HuN t) (HdN t) u w) (weirLin old Q Hu Hd u w) := by
  rcases aw with aw | d
  · exact weir_to cQ cHu cHd tendsto_const_nhds aw
  · have z : ∀ (old : Lin) (Q Hu Hd : ℝ), ¬ max Hu Hd > w.z_w + w.z_inv + (1 - u) * w.y_max →
        weirLin old Q Hu Hd u w = ⟨0, 0, 0⟩ := by
      intro old Q Hu Hd h
      rw [weirLin_by, upper_eq, weirBy, if_pos h]
    rw [z old Q Hu Hd (not_lt.mpr d.le)]
    refine (LinTo.const _).congr ?_
    filter_upwards [dry_to (cHu.max cHd) d] with t h
    exact z _ _ _ _ h

theorem calmPump_to {oldN : ι → Lin} {QN HuN HdN : ι → ℝ} {old : Lin} {Q Hu Hd u : ℝ} {p : Pump}
    (cQ : Tendsto QN l (𝓝 Q)) (cHu : Tendsto HuN l (𝓝 Hu)) (cHd : Tendsto HdN l (𝓝 Hd)) (aw : CalmPump Q Hu Hd p) :
    LinTo l (fun t => pumpLin (oldN t) (QN t) (HuN t) (HdN t) u p) (pumpLin old Q Hu Hd u p) := by
  rcases aw with aw | d
  · exact pump_to cQ cHu cHd tendsto_const_nhds aw
  · have z : ∀ (old : Lin) (Q Hu Hd : ℝ), ¬ Hu > p.z_inv + p.z_p → pumpLin old Q Hu Hd u p = ⟨0, 0, 0⟩ := by
      intro old Q Hu Hd h
      rw [pumpLin_by, pumpBy, if_pos h]
    rw [z old Q Hu Hd (not_lt.mpr d.le)]
    refine (LinTo.const _).congr ?_
    filter_upwards [dry_to cHu d] with t h
    exact z _ _ _ _ h

/-- Discharge of a calm orifice. -/
theorem orificeFlow_to {AN HuN HdN VuN VdN : ι → ℝ} {g A C Hu Hd u Vu Vd dt : ℝ} {o : Orifice}
    (cA : Tendsto AN l (𝓝 A)) (cHu : Tendsto HuN l (𝓝 Hu)) (cHd : Tendsto HdN l (𝓝 Hd))
    (cVu : Tendsto VuN l (𝓝 Vu)) (cVd : Tendsto VdN l (𝓝 Vd))
    (aw : CalmOrifice (orificeFlow g A C Hu Hd u Vu Vd dt o) Hu Hd u o) :
    Tendsto (fun t => orificeFlow g (AN t) C (HuN t) (HdN t) u (VuN t) (VdN t) dt o) l
      (𝓝 (orificeFlow g A C Hu Hd u Vu Vd dt o)) := by
  have z : ∀ (A Hu Hd Vu Vd : ℝ), orificeCoef ⟨0, 0, 0⟩ (2 * g * C ^ 2 * A ^ 2) Hu Hd u o = ⟨0, 0, 0⟩ →
      orificeFlow g A C Hu Hd u Vu Vd dt o = 0 := by
    intro A Hu Hd Vu Vd h
    simp [orificeFlow, orificeRaw, h, orificeLimit, npSign]
  rcases aw with aw | ⟨d1, d2⟩ | ⟨un, lt⟩
  · have cl := orificeCoef_to (oldN := fun _ => ⟨0, 0, 0⟩) (old := ⟨0, 0, 0⟩) (((cA.pow 2).const_mul (2 * g * C ^ 2))) cHu cHd
      (tendsto_const_nhds (x := u)) aw
    have cr : Tendsto (fun t => orificeRaw g (AN t) C (HuN t) (HdN t) u o) l (𝓝 (orificeRaw g A C Hu Hd u o)) := by
      have h := ((((cl.alpha.mul cHu).add (cl.beta.mul cHd)).add cl.chi).abs.sqrt).const_mul (sgn Hu Hd)
      refine h.congr' ?_
      filter_upwards [omega_to cHu cHd aw.H] with t ht
      simp only [orificeRaw, ht.2.1]
    have r0 : orificeRaw g A C Hu Hd u o ≠ 0 := by
      intro e
      apply aw.Q
      simp [orificeFlow, e, orificeLimit, npSign]
    have cs : ∀ᶠ t in l, npSign (orificeRaw g (AN t) C (HuN t) (HdN t) u o) = npSign (orificeRaw g A C Hu Hd u o) := by
      filter_upwards [gt_to cr (tendsto_const_nhds (x := (0 : ℝ))) r0, gt_to (tendsto_const_nhds (x := (0 : ℝ))) cr r0.symm]
        with t h1 h2
      unfold npSign
      simp only [h1]
      have h2' : (orificeRaw g (AN t) C (HuN t) (HdN t) u o < 0) = (orificeRaw g A C Hu Hd u o < 0) := h2
      simp only [h2']
    have cm : Tendsto (fun t => (if HuN t > HdN t then VuN t else VdN t) / dt) l (𝓝 ((if Hu > Hd then Vu else Vd) / dt)) := by
      refine Tendsto.div_const ?_ _
      by_cases h : Hu > Hd
      · rw [if_pos h]
        refine cVu.congr' ?_
        filter_upwards [gt_to cHu cHd aw.H] with t ht
        rw [if_pos (by rw [ht]; exact h)]
      · rw [if_neg h]
        refine cVd.congr' ?_
        filter_upwards [gt_to cHu cHd aw.H] with t ht
        rw [if_neg (by rw [ht]; exact h)]
    have := (cr.abs.min cm).const_mul (npSign (orificeRaw g A C Hu Hd u o))
    refine this.congr' ?_
    filter_upwards [cs] with t ht
    simp only [orificeFlow, orificeLimit, ht]
  · have q : ∀ (γ Hu Hd : ℝ), ¬ max Hu Hd > o.z_o + o.z_inv → ¬ max Hu Hd > o.z_o + o.z_inv + o.tau * o.y_max * u →
        orificeCoef ⟨0, 0, 0⟩ γ Hu Hd u o = ⟨0, 0, 0⟩ := by
      intro γ Hu Hd h1 h2
      rw [orificeCoef_by, upper_eq, orificeBy, if_pos (Or.inl ⟨h2, h1⟩)]
    rw [z _ _ _ _ _ (q _ _ _ (not_lt.mpr d1.le) (not_lt.mpr d2.le))]
    refine tendsto_const_nhds.congr' ?_
    filter_upwards [dry_to (cHu.max cHd) d1, dry_to (cHu.max cHd) d2] with t h1 h2
    exact (z _ _ _ _ _ (q _ _ _ h1 h2)).symm
  · have q : ∀ (γ Hu Hd : ℝ), Hd ≥ Hu → orificeCoef ⟨0, 0, 0⟩ γ Hu Hd u o = ⟨0, 0, 0⟩ := by
      intro γ Hu Hd h1
      rw [orificeCoef_by, orificeBy, if_pos (Or.inr ⟨h1, un⟩)]
    rw [z _ _ _ _ _ (q _ _ _ lt.le)]
    refine tendsto_const_nhds.congr' ?_
    filter_upwards [cHu.eventually_lt cHd lt] with t ht
    exact (z _ _ _ _ _ (q _ _ _ ht.le)).symm

/-- Discharge of a calm pump. -/
theorem pumpFlow_to {HuN HdN : ι → ℝ} {Hu Hd u : ℝ} {p : Pump} (cHu : Tendsto HuN l (𝓝 Hu)) (cHd : Tendsto HdN l (𝓝 Hd))
    (aw : CalmPump (pumpFlow Hu Hd u p) Hu Hd p) :
    Tendsto (fun t => pumpFlow (HuN t) (HdN t) u p) l (𝓝 (pumpFlow Hu Hd u p)) := by
  have ne : Hu ≠ p.z_inv + p.z_p := by
    rcases aw with aw | d
    · exact aw.inlet
    · exact d.ne
  have c0 := gt_to cHu (tendsto_const_nhds (x := p.z_inv + p.z_p)) ne
  unfold pumpFlow
  by_cases w : Hu > p.z_inv + p.z_p
  · rw [if_pos w]
    have Q0 : pumpFlow Hu Hd u p ≠ 0 := by
      rcases aw with aw | d
      · exact aw.Q
      · exact absurd w (not_lt.mpr d.le)
    have ch : Tendsto (fun t => pumpHead (HuN t) (HdN t) p) l (𝓝 (pumpHead Hu Hd p)) :=
      (pumpHead_continuous p).continuousAt.tendsto.comp (cHu.prodMk_nhds cHd)
    have ok : u / p.b * (p.a - pumpHead Hu Hd p) ≠ 0 ∨ 0 ≤ 1 / p.c := by
      by_contra h
      push Not at h
      apply Q0
      unfold pumpFlow
      rw [if_pos w, h.1, Real.zero_rpow h.2.ne]
    refine (((ch.const_sub _).const_mul _).rpow_const ok).congr' ?_
    filter_upwards [c0] with t ht
    rw [if_pos (by rw [ht]; exact w)]
  · rw [if_neg w]
    refine tendsto_const_nhds.congr' ?_
    filter_upwards [c0] with t ht
    rw [if_neg (by rw [ht]; exact w)]

/-! ### Geometry -/

variable {m : Model} {P : Plan} {inp : Inputs} {oN oN' : ι → Obj} {o o' : Obj}

theorem pair_to {f : ℝ → ℝ → ℝ} {a b : ι → ℝ} {x y : ℝ} (c : ContinuousAt (fun h : ℝ × ℝ => f h.1 h.2) (x, y))
    (ha : Tendsto a l (𝓝 x)) (hb : Tendsto b l (𝓝 y)) : Tendsto (fun t => f (a t) (b t)) l (𝓝 (f x y)) :=
  Tendsto.comp (g := fun h : ℝ × ℝ => f h.1 h.2) c (ha.prodMk_nhds hb)

theorem storageDepth_to {H : ι → ℝ} {H0 z md : ℝ} (h : Tendsto H l (𝓝 H0)) :
    Tendsto (fun t => storageDepth (H t) z md) l (𝓝 (storageDepth H0 z md)) := by
  unfold storageDepth
  exact (h.sub_const _).max tendsto_const_nhds

theorem geoOf_to (sd : Sound m P) (ik : ∀ k, k < m.ix.NK → ∀ j, j < m.ix.nk k → P.Ik (m.ix.i_1k k + j) = m.ix.I_1k k + j)
    (AN : ι → ℕ → ℝ) (A : ℕ → ℝ) (ot : ObjTo m l oN o) (sm : Smooth m P inp o) :
    GeoTo m l (fun t => m.geoOf P (oN t).hid (AN t) (oN t).cur) (m.geoOf P o.hid A o.cur) := by
  have hh := fun k (hk : k < m.ix.NK) j (hj : j < m.ix.nk k) => ot.cur.h k hk j hj.le
  have hh1 := fun k (hk : k < m.ix.NK) j (hj : j < m.ix.nk k) => ot.cur.h k hk (j + 1) hj
  have eu := fun k (hk : k < m.ix.NK) => (ot.thu k hk).mul ((ot.cur.H _ (sd.cons.Ju k hk)).sub_const (m.z_uk k))
  have ed := fun k (hk : k < m.ix.NK) => (ot.thd k hk).mul ((ot.cur.H _ (sd.cons.Jd k hk)).sub_const (m.z_dk k))
  have h0 : ∀ k, k < m.ix.NK → Tendsto (fun t => (oN t).cur.h (m.ix.I_1k k)) l (𝓝 (o.cur.h (m.ix.I_1k k))) :=
    fun k hk => ot.cur.h k hk 0 (Nat.zero_le _)
  have hn := fun k (hk : k < m.ix.NK) => ot.cur.h k hk (m.ix.nk k) le_rfl
  refine ⟨?_, ?_, ?_, ?_, ?_, ?_, ?_, ?_, ?_⟩
  · intro k hk j hj
    simp only [Model.geoOf, ik k hk j hj]
    exact pair_to (sm.sec k hk j hj).1 (hh k hk j hj) (hh1 k hk j hj)
  · intro k hk j hj
    simp only [Model.geoOf, ik k hk j hj]
    exact pair_to (f := fun a b => (P.sec (m.ix.i_1k k + j)).R P.eps P.ell a b) (sm.sec k hk j hj).2.1 (hh k hk j hj) (hh1 k hk j hj)
  · intro k hk j hj
    simp only [Model.geoOf, ik k hk j hj]
    exact pair_to (sm.sec k hk j hj).2.2 (hh k hk j hj) (hh1 k hk j hj)
  · intro k hk j hj
    simp only [Model.geoOf, sd.damp, Bool.false_eq_true, if_false]
    exact tendsto_const_nhds
  · intro k hk
    simp only [Model.geoOf, upTo_of_lt _ hk]
    exact pair_to (sm.first k hk).1 (h0 k hk) (eu k hk)
  · intro k hk
    simp only [Model.geoOf, upTo_of_lt _ hk]
    exact pair_to (sm.first k hk).2.1 (h0 k hk) (eu k hk)
  · intro k hk
    simp only [Model.geoOf, upTo_of_lt _ hk]
    exact pair_to (sm.last k hk).1 (hn k hk) (ed k hk)
  · intro k hk
    simp only [Model.geoOf, upTo_of_lt _ hk]
    exact pair_to (sm.last k hk).2.1 (hn k hk) (ed k hk)
  · intro i hi
    simp only [Model.geoOf, upTo_of_lt _ hi]
    exact (sm.storage i hi).1.tendsto.comp (storageDepth_to (ot.cur.H i hi))

/-- Orifice areas converge. -/
theorem orificeArea_to (c : m.Consistent) {AN : ι → ℕ → ℝ} {A : ℕ → ℝ} (ot : ObjTo m l oN o) (sm : Smooth m P inp o)
    {a : ℕ} (ha : a < m.n_o)
    (hN : ∀ t, orificeArea ((oN t).hid.Ao a) (P.oShape a) (P.oGP a) (m.orificeDepth (oN t).cur a) (inp.u_o a) = .ok (AN t a))
    (h : orificeArea (o.hid.Ao a) (P.oShape a) (P.oGP a) (m.orificeDepth o.cur a) (inp.u_o a) = .ok (A a)) :
    Tendsto (fun t => AN t a) l (𝓝 (A a)) := by
  have cd : Tendsto (fun t => m.orificeDepth (oN t).cur a) l (𝓝 (m.orificeDepth o.cur a)) :=
    (((ot.cur.H _ (c.Juo a ha)).sub_const _).sub_const _).max (((ot.cur.H _ (c.Jdo a ha)).sub_const _).sub_const _)
  by_cases f : P.oShape a = .floodplain
  · have e : ∀ old d B, orificeArea old (P.oShape a) (P.oGP a) d (inp.u_o a) = .ok B → B = old := by
      intro old d B h
      rw [f] at h
      simp only [orificeArea] at h
      exact (Except.ok.inj h).symm
    rw [e _ _ _ h, funext fun t => e _ _ _ (hN t)]
    exact ot.Ao a ha
  · have e : ∀ old d B, orificeArea old (P.oShape a) (P.oGP a) d (inp.u_o a) = .ok B →
        B = area (P.oShape a) { P.oGP a with g1 := (P.oGP a).g1 * inp.u_o a } d d := by
      intro old d B h
      generalize P.oShape a = s at f h
      cases s <;> simp only [orificeArea] at h <;>
        first
          | exact absurd rfl f
          | exact (Except.ok.inj h).symm
          | (split_ifs at h; exact (Except.ok.inj h).symm)
    rw [e _ _ _ h, funext fun t => e _ _ _ (hN t)]
    exact (sm.opening a ha f).tendsto.comp cd

/-! ### C178 -/

/-- **C178 (a call).** If the objects tend to one from which a call stays away from every threshold, then the results of the
same call tend to its result: heads, depths, flows, flows of controls, switches and orifice areas. The geometry is the one the
object computes itself. -/
theorem C178_call_partial (sd : Sound m P) (st : StartTables m)
    (ik : ∀ k, k < m.ix.NK → ∀ j, j < m.ix.nk k → P.Ik (m.ix.i_1k k + j) = m.ix.I_1k k + j) (gi : GoodInputs m P inp) {first : Bool}
    (gN : ∀ t, GoodObj m (oN t)) (g : GoodObj m o) (ot : ObjTo m l oN o)
    (hN : ∀ t, Calls1 m P first inp (oN t) (oN' t)) (h : Calls1 m P first inp o o') (aw : AwayCall m P inp o o') :
    ObjTo m l oN' o' := by
  have c := sd.cons
  choose AN cN xN areaN pN eN using hN
  obtain ⟨A, co, x, area, p, rfl⟩ := h
  have e' := funext eN
  subst e'
  have gt := geoOf_to sd ik AN A ot aw.smooth
  have cA : ∀ a, a < m.n_o → Tendsto (fun t => AN t a) l (𝓝 (A a)) := fun a ha =>
    orificeArea_to c ot aw.smooth ha (fun t => areaN t a ha) (area a ha)
  have cAo : ∀ a, a < m.n_o → Tendsto (fun t => (m.geoOf P (oN t).hid (AN t) (oN t).cur).Ao a) l
      (𝓝 ((m.geoOf P o.hid A o.cur).Ao a)) := by
    intro a ha
    simp only [Model.geoOf, upTo_of_lt _ ha]
    exact cA a ha
  have cV : ∀ i, i < m.M → Tendsto (fun t => (m.geoOf P (oN t).hid (AN t) (oN t).cur).V i) l
      (𝓝 ((m.geoOf P o.hid A o.cur).V i)) := by
    intro i hi
    simp only [Model.geoOf, upTo_of_lt _ hi]
    exact (aw.smooth.storage i hi).2.tendsto.comp (storageDepth_to (ot.cur.H i hi))
  have hi : InputsTo m l (fun _ => inp) (fun t => (oN t).cur) inp o.cur := by
    refine ⟨tendsto_const_nhds, fun _ _ => tendsto_const_nhds, fun _ _ _ _ => tendsto_const_nhds, fun j hj => ?_⟩
    cases inp.H_bc with
    | none => exact ot.cur.H j hj
    | some Hb => exact tendsto_const_nhds
  have hp : StateTo m l (fun t => if first then (oN t).cur else (oN t).saved) (if first then o.cur else o.saved) := by
    cases first
    · exact ot.saved
    · exact ot.cur
  have ends : ∀ k, k < m.ix.NK → AwayEnds m (m.geoOf P o.hid A o.cur) o.cur k := fun k hk =>
    ⟨aw.smooth.up k hk, aw.smooth.down k hk, by simp only [Model.geoOf, upTo_of_lt _ hk]; exact (aw.smooth.first k hk).2.2,
      by simp only [Model.geoOf, upTo_of_lt _ hk]; exact (aw.smooth.last k hk).2.2⟩
  have res := C178_continuous_partial (wN := fun t => (oN t).wk) (wk := o.wk) c st
    (fun t => physical_geoOf sd gi (oN t).hid (AN t) (gN t).wet) (physical_geoOf sd gi o.hid A g.wet)
    (fun t => (gN t).clean) g.clean gt hi hp ot.cur ends
    (fun a ha => calmCoef_to (Q := o.cur.Qo a) (fun q => by
        simp only [gammaO, safeDivide_eq]
        exact (((cAo a ha).pow 2).const_mul _).div (ot.Qo a ha).abs (abs_ne_zero.mpr q))
      (ot.cur.H _ (c.Juo a ha)) (ot.cur.H _ (c.Jdo a ha)) (aw.before.orifice a ha))
    (fun a ha => calmWeir_to (ot.Qw a ha) (ot.cur.H _ (c.Juw a ha)) (ot.cur.H _ (c.Jdw a ha)) (aw.before.weir a ha))
    (fun a ha => calmPump_to (ot.Qp a ha) (ot.cur.H _ (c.Jup a ha)) (ot.cur.H _ (c.Jdp a ha)) (aw.before.pump a ha)) pN p
  obtain ⟨rH, rk⟩ := res
  have new : StateTo m l (fun t => m.advance (m.geoOf P (oN t).hid (AN t) (oN t).cur) inp (oN t).wk (oN t).cur (cN t) (xN t))
      (m.advance (m.geoOf P o.hid A o.cur) inp o.wk o.cur co x) :=
    ⟨rH, fun k hk => (rk k hk).1, fun k hk => (rk k hk).2.1, fun k hk => (rk k hk).2.2.1, fun k hk => (rk k hk).2.2.2⟩
  refine ⟨hp, new, fun a ha => ?_, fun a ha => ?_, fun a ha => ?_, fun k hk => ?_, fun k hk => ?_, fun a ha => ?_⟩
  · exact orificeFlow_to (cAo a ha) (rH _ (c.Juo a ha)) (rH _ (c.Jdo a ha)) (cV _ (c.Juo a ha)) (cV _ (c.Jdo a ha))
      (aw.after.orifice a ha)
  · exact ((C166_weir (m.weir a)).tendsto _).comp ((rH _ (c.Juw a ha)).prodMk_nhds
      ((rH _ (c.Jdw a ha)).prodMk_nhds (tendsto_const_nhds (x := inp.u_w a))))
  · exact pumpFlow_to (rH _ (c.Jup a ha)) (rH _ (c.Jdp a ha)) (aw.after.pump a ha)
  · simp only [Model.nextHidden, upTo_of_lt _ hk]
    exact theta_to (ot.cur.H _ (c.Ju k hk)) (aw.smooth.up k hk)
  · simp only [Model.nextHidden, upTo_of_lt _ hk]
    exact theta_to (ot.cur.H _ (c.Jd k hk)) (aw.smooth.down k hk)
  · simp only [Model.nextHidden, upTo_of_lt _ ha]
    exact cA a ha

/-- **C178 (runs).** If a run, of any length and with any mixture of first passes and iterations, stays away from every
threshold, then runs with the same inputs from objects tending to its start end in objects tending to its end. -/
theorem C178_run_partial (sd : Sound m P) (st : StartTables m)
    (ik : ∀ k, k < m.ix.NK → ∀ j, j < m.ix.nk k → P.Ik (m.ix.i_1k k + j) = m.ix.I_1k k + j) (qs : List (Bool × Inputs))
    (gi : ∀ q ∈ qs, GoodInputs m P q.2) (gN : ∀ t, GoodObj m (oN t)) (g : GoodObj m o) (ot : ObjTo m l oN o)
    (hN : ∀ t, History m P qs (oN t) (oN' t)) (h : AwayRun m P qs o o') : ObjTo m l oN' o' := by
  induction qs generalizing oN o with
  | nil =>
    have e : oN' = oN := funext hN
    have e' : o' = o := h
    rw [e, e']; exact ot
  | cons q rest ih =>
    choose o1N c1N r1N using hN
    obtain ⟨o1, c1, a1, r1⟩ := h
    have ot1 := C178_call_partial sd st ik (gi q (by simp)) gN g ot c1N c1 a1
    exact ih (fun q' hq => gi q' (List.mem_cons_of_mem _ hq)) (fun t => (gN t).next sd.cons (c1N t)) (g.next sd.cons c1) ot1 r1N r1

/-! ### When the geometry is smooth -/

/-- Sections whose geometry the model file defines: valid shapes (with the exact perimeter of an ellipse), or tables over
increasing depths. -/
def Section.Defined (ell : GP → ℝ → ℝ → ℝ) : Section → Prop
  | .regular s p => Valid s p ∧ (s = .elliptical → ∀ h1 h2, ell p h1 h2 = ellipticalPe h1 h2 p.g1 p.g2)
  | .irregular n zs _ _ _ => 0 < n ∧ Sorted n zs

/-- The section is a pipe or closed rectangle just becoming full. -/
def Section.JustFull : Section → ℝ → ℝ → Prop
  | .regular s p, h1, h2 => (s = .circular ∨ s = .rectClosed) ∧ h1 + h2 = 2 * p.g1
  | .irregular .., _, _ => False

/-- **C178 (sections).** Area, hydraulic radius and top width of every section, also of a table, are continuous where there is
water, unless a pipe or closed rectangle just becomes full. -/
theorem C178_sections {eps : ℝ} (he : 0 < eps) {ell : GP → ℝ → ℝ → ℝ} {S : Section} (d : S.Defined ell) {h1 h2 : ℝ}
    (w : 0 < h1 + h2) (nf : ¬ S.JustFull h1 h2) :
    ContinuousAt (fun h : ℝ × ℝ => S.A h.1 h.2) (h1, h2) ∧ ContinuousAt (fun h : ℝ × ℝ => S.R eps ell h.1 h.2) (h1, h2) ∧
    ContinuousAt (fun h : ℝ × ℝ => S.B h.1 h.2) (h1, h2) := by
  cases S with
  | regular s p =>
    obtain ⟨v, e⟩ := d
    refine ⟨(C182_area s p v).continuousAt, ?_, C182_width_partial s p v w fun c f => nf ⟨c, f⟩⟩
    have q : (fun h : ℝ × ℝ => (Section.regular s p).R eps ell h.1 h.2)
        = fun h : ℝ × ℝ => hydRadius (area s p h.1 h.2) (wetted eps s p h) := by
      funext h
      simp only [Section.R, wetted]
      by_cases es : s = .elliptical
      · rw [e es]
      · congr 1
        cases s <;> first | rfl | exact absurd rfl es
    rw [q]
    exact C182_radius he s p v w
  | irregular n zs As Bs Rs =>
    have cm : Continuous fun h : ℝ × ℝ => (h.1 + h.2) / 2 := by fun_prop
    exact ⟨((C38_continuous As d.1 d.2).comp cm).continuousAt, ((C38_continuous Rs d.1 d.2).comp cm).continuousAt,
      ((C38_continuous Bs d.1 d.2).comp cm).continuousAt⟩

/-- Storage curves, and depths at which they are smooth: every positive depth of a functional storage, every depth of a table
over increasing depths except its ends. -/
def Storage.SmoothAt : Storage → ℝ → Prop
  | .functional _ _ _, h => 0 < h
  | .tabular n hs _ _, h => 1 < n ∧ Sorted n hs ∧ h ≠ hs 0 ∧ h ≠ hs (n - 1)

/-- **C178 (storages).** Surface area and volume are continuous there. -/
theorem C178_storages {S : Storage} {h : ℝ} (d : S.SmoothAt h) : ContinuousAt S.A h ∧ ContinuousAt S.V h := by
  cases S with
  | functional a b c =>
    have d : 0 < h := d
    constructor
    · refine ContinuousAt.congr (f := fun h => a * h ^ b + c) ?_ ?_
      · exact (continuousAt_const.mul (Real.continuousAt_rpow_const _ _ (Or.inl d.ne'))).add continuousAt_const
      · filter_upwards [Ioi_mem_nhds d] with z hz
        simp only [Storage.A, functionalArea, if_neg (not_lt.mpr (le_of_lt (Set.mem_Ioi.mp hz)))]
    · refine ContinuousAt.congr (f := fun h => (a / (b + 1)) * h ^ (b + 1) + c * h) ?_ ?_
      · exact (continuousAt_const.mul (Real.continuousAt_rpow_const _ _ (Or.inl d.ne'))).add (continuousAt_const.mul continuousAt_id)
      · filter_upwards [Ioi_mem_nhds d] with z hz
        simp only [Storage.V, functionalVolume, if_neg (not_lt.mpr (le_of_lt (Set.mem_Ioi.mp hz)))]
  | tabular n hs As Vs =>
    obtain ⟨n1, so, h0, h1⟩ := d
    exact ⟨C34_continuousAt so n1 h0 h1, tabularVolume_continuousAt so n1 h0 h1⟩

theorem valid_scaled {s : Shape} {p : GP} (v : Valid s p) {u : ℝ} (hu : 0 < u) : Valid s { p with g1 := p.g1 * u } := by
  obtain ⟨a, b⟩ := v
  refine ⟨mul_pos a hu, ?_⟩
  cases s <;> exact b

theorem area_diag {s : Shape} {q : GP} (v : Valid s q) : Continuous fun h : ℝ => area s q h h := by
  have d : Continuous fun h : ℝ => (h, h) := by fun_prop
  have := (C182_area s q v).comp d
  simpa only [Function.comp_def] using this

/-- **C178 (openings).** The area of a partly open orifice is continuous in the water level. -/
theorem C178_openings {s : Shape} {p : GP} (v : Valid s p) {u : ℝ} (hu : 0 < u) :
    Continuous fun h : ℝ => area s { p with g1 := p.g1 * u } h h := area_diag (valid_scaled v hu)

/-- Water of depth 1 in the pipe, level `H` in both superjunctions of the model of `C147_not_kept`, everything at rest. -/
noncomputable def stillHyd (H : ℝ) : Hyd where
  H := fun _ => H
  h := fun _ => 1
  Q := fun _ => 0
  Qu := fun _ => 0
  Qd := fun _ => 0
  Qo := fun _ => 0
  Qw := fun _ => 0
  Qp := fun _ => 0

noncomputable def stillObj (H : ℝ) : Obj := ⟨stillHyd H, stillHyd H, freshWork, Hidden.fresh fun _ => 0⟩

/-- A call from level 1, and from levels tending to 1. -/
example : ∃ oN' o', (∀ t, History (inModel false) inPlan [(true, hiddenInputs)] (stillObj t) (oN' t)) ∧
    AwayRun (inModel false) inPlan [(true, hiddenInputs)] (stillObj 1) o' ∧ ObjTo (inModel false) (𝓝 1) oN' o' := by
  have gd : ∀ t, GoodObj (inModel false) (stillObj t) := fun t =>
    ⟨freshClean _, fun I => by norm_num [inModel, reModel, stillObj, stillHyd]⟩
  have gi := hiddenGood (inNoRound false)
  choose oN' hN using fun t => C105_step_succeeds (inSound false) gi true (gd t)
  have ot : ObjTo (inModel false) (𝓝 1) stillObj (stillObj 1) := by
    refine ⟨⟨?_, ?_, ?_, ?_, ?_⟩, ⟨?_, ?_, ?_, ?_, ?_⟩, ?_, ?_, ?_, ?_, ?_, ?_⟩ <;> intros <;>
      first
        | exact tendsto_const_nhds
        | exact tendsto_id
  have d : ∀ i, (inPlan.sec i).Defined inPlan.ell := fun i => by simp [inPlan, rePlan, Section.Defined, Valid]
  have nf : ∀ i a b, ¬ (inPlan.sec i).JustFull a b := fun i a b => by simp [inPlan, Section.JustFull]
  have sec := fun i {a b : ℝ} (w : 0 < a + b) => C178_sections (eps := inPlan.eps) (by norm_num [inPlan, rePlan]) (d i) w (nf i a b)
  have ap : ∀ i {a b : ℝ}, 0 < a + b → (inPlan.sec i).A a b ≠ 0 := fun i {a b} w =>
    (area_pos (s := .rectOpen) (p := ⟨2, 1, 0, 0, 0, 0, 0⟩) (by simp [Wettable, Valid]) w).ne'
  have e1 : ∀ k, (1 : ℝ) = (stillObj 1).hid.thu k * ((stillObj 1).cur.H ((inModel false).Ju k) - (inModel false).z_uk k) := fun k => by
    norm_num [stillObj, stillHyd, Hidden.fresh, inModel]
  have e2 : ∀ k, (1 : ℝ) = (stillObj 1).hid.thd k * ((stillObj 1).cur.H ((inModel false).Jd k) - (inModel false).z_dk k) := fun k => by
    norm_num [stillObj, stillHyd, Hidden.fresh, inModel]
  have h1 : ∀ I, (stillObj 1).cur.h I = 1 := fun _ => rfl
  have sm : Smooth (inModel false) inPlan hiddenInputs (stillObj 1) := by
    refine ⟨fun k _ => ?_, fun k _ => ?_, fun k _ j _ => ?_, fun k _ => ?_, fun k _ => ?_, fun j _ => ?_, fun a ha => ?_⟩
    · norm_num [stillObj, stillHyd, inModel]
    · norm_num [stillObj, stillHyd, inModel]
    · exact sec _ (by rw [h1, h1]; norm_num)
    · rw [← e1, h1]
      exact ⟨(sec _ (by norm_num)).1, (sec _ (by norm_num)).2.2, ap _ (by norm_num)⟩
    · rw [← e2, h1]
      exact ⟨(sec _ (by norm_num)).1, (sec _ (by norm_num)).2.2, ap _ (by norm_num)⟩
    · refine C178_storages ?_
      show 0 < max _ _
      exact lt_max_of_lt_right (by norm_num [inModel, reModel])
    · simp [inModel, reModel] at ha
  have calm : ∀ s, NoThreshold (inModel false) hiddenInputs s := fun s =>
    ⟨fun a ha => by simp [inModel, reModel] at ha, fun a ha => by simp [inModel, reModel] at ha,
      fun a ha => by simp [inModel, reModel] at ha⟩
  have run : AwayRun (inModel false) inPlan [(true, hiddenInputs)] (stillObj 1) (oN' 1) :=
    ⟨oN' 1, hN 1, ⟨sm, calm _, calm _⟩, rfl⟩
  have his : ∀ t, History (inModel false) inPlan [(true, hiddenInputs)] (stillObj t) (oN' t) := fun t => ⟨oN' t, hN t, rfl⟩
  refine ⟨oN', oN' 1, his, run, C178_run_partial (inSound false) (inTables false) ?_ _ ?_ gd (gd 1) ot his run⟩
  · intro k _ j _
    simp [inModel, reModel, inPlan, rePlan]
  · intro q hq
    rw [List.mem_singleton.mp hq]
    exact gi

end Pipedream.Step
