import Verif.FrictionProps
import Verif.DischargeProps
import Verif.ImplicitProps
import Verif.SteadyControlProps
import Verif.SteadyExistsProps

/-!
# C173, C176, C180, C181, C185, C186 for states which the step keeps

Those theorems start from the steady equations, `Steady`. Here the hypothesis is that a pass of the step (superlink.py 4085–4156)
gives the state back, so that the friction law, the end relations and the mass balances are those of the code.
-/

namespace Pipedream.Step

open Pipedream.Sweep Pipedream.Link Pipedream.Superlink Pipedream.Control Pipedream.Network

variable {m : Model} {geo : Geo} {inp inp' : Inputs} {s s' : Hyd} {wk wk' : Work} {zI : ℕ → ℝ} {k j : ℕ}

noncomputable section

/-- A pass from `s`, which lies inside all limits, gives `s` back. -/
structure Kept (m : Model) (geo : Geo) (inp : Inputs) (wk : Work) (s : Hyd) : Prop where
  consistent : m.Consistent
  tables : StartTables m
  physical : PhysicalStep m geo inp
  clean : CleanWork m wk.mats
  method : m.end_method = .b
  proper : ProperControls m geo inp s
  inside : Inside m s
  kept : ∃ co x, Pass m geo inp wk s s co x ∧ SameState m s (m.advance geo inp wk s co x)

theorem Kept.steady (h : Kept m geo inp wk s) : Steady m geo inp s := by
  obtain ⟨co, x, p, same⟩ := h.kept
  exact (Implicit.steady_iff s).1 ((C160_fixed_point_iff h.consistent h.tables h.physical h.clean h.method h.proper h.inside p).1
    same)

/-- Steady states inside the limits are kept. -/
theorem kept_of_steady (c : m.Consistent) (st : StartTables m) (ps : PhysicalStep m geo inp) (cw : CleanWork m wk.mats)
    (he : m.end_method = .b) (pc : ProperControls m geo inp s) (ins : Inside m s)
    (hm : ∀ i, i < m.N → m.method i = 0 ∨ m.method i = 1) (sd : Steady m geo inp s) : Kept m geo inp wk s := by
  obtain ⟨co, x, p⟩ := C06_step_exists (prev := s) (cur := s) c ps cw hm
  exact ⟨c, st, ps, cw, he, pc, ins, co, x, p, C100_steady_reproduced c st ps cw he pc ins (SameState.refl _ _) sd p⟩

/-! ### C176 -/

/-- **C176 for the step.** If a pass keeps the state, in every link without structure and lateral inflow and with flow along it
the velocity is that of Manning's formula, or that of Hazen and Williams, for the slope of the water surface. -/
theorem C176_kept (h : Kept m geo inp wk s) (hk : k < m.ix.NK)
    (h0 : ∀ j, j ≤ m.ix.nk k → inp.Q_0Ik (m.ix.I_1k k + j) = 0) (hj : j < m.ix.nk k)
    (hc : m.ctrl (m.ix.i_1k k + j) = false) (hQ : 0 ≤ s.Q (m.ix.i_1k k + j)) :
    (m.method (m.ix.i_1k k + j) = 0 →
      Manning (m.n (m.ix.i_1k k + j)) (geo.R (m.ix.i_1k k + j)) (surfaceSlope m s k j) (velocity m geo s k j)) ∧
    (m.method (m.ix.i_1k k + j) = 1 →
      HazenWilliams (m.n (m.ix.i_1k k + j)) (geo.R (m.ix.i_1k k + j)) (surfaceSlope m s k j) (velocity m geo s k j)) :=
  ⟨fun hm => C176_manning h.physical h.consistent h.steady hk h0 hj hc hm hQ,
    fun hm => C176_hazen_williams h.physical h.consistent h.steady hk h0 hj hc hm hQ⟩

/-- **C176 for the step (Darcy–Weisbach).** -/
theorem C176_kept_darcy_iff (h : Kept m geo inp wk s) (hk : k < m.ix.NK)
    (h0 : ∀ j, j ≤ m.ix.nk k → inp.Q_0Ik (m.ix.I_1k k + j) = 0) (hj : j < m.ix.nk k)
    (hc : m.ctrl (m.ix.i_1k k + j) = false) (hm : m.method (m.ix.i_1k k + j) = 2) (hQ : 0 ≤ s.Q (m.ix.i_1k k + j))
    (hf : swameeJain (m.n (m.ix.i_1k k + j)) (geo.R (m.ix.i_1k k + j)) (velocity m geo s k j) ≠ 0) :
    DarcyWeisbach m.g (swameeJain (m.n (m.ix.i_1k k + j)) (geo.R (m.ix.i_1k k + j)) (velocity m geo s k j))
        (geo.R (m.ix.i_1k k + j)) (surfaceSlope m s k j) (velocity m geo s k j)
      ↔ s.Q (m.ix.i_1k k + j) = 0 ∨ 8 * 0.01274 * m.g = 1 :=
  C176_darcy_weisbach_iff h.physical h.consistent h.steady hk h0 hj hc hm hQ hf

/-! ### C173 -/

/-- **C173 for the step.** If a pass keeps the state, pipe inlets and outlets under water and structures in links obey the
documented discharge law in the exceptional cases only. -/
theorem C173_kept (h : Kept m geo inp wk s) (hk : k < m.ix.NK) :
    (m.z_uk k ≤ s.H (m.Ju k) → 0 ≤ m.C_uk k →
      (Discharges m.g (m.C_uk k) (geo.A_u k) (headIn m s k) (s.Qu k) ↔ s.Qu k = 0 ∨ m.C_uk k = 1)) ∧
    (m.z_dk k ≤ s.H (m.Jd k) → 0 ≤ m.C_dk k →
      (Discharges m.g (m.C_dk k) (geo.A_d k) (headOut m s k) (s.Qd k) ↔ s.Qd k = 0 ∨ m.C_dk k = 1)) ∧
    ((∀ j, j ≤ m.ix.nk k → inp.Q_0Ik (m.ix.I_1k k + j) = 0) → ∀ j, j < m.ix.nk k → m.ctrl (m.ix.i_1k k + j) = true →
      0 ≤ m.C (m.ix.i_1k k + j) → 0 < m.A_c (m.ix.i_1k k + j) →
      (Discharges m.g (m.C (m.ix.i_1k k + j)) (m.A_c (m.ix.i_1k k + j)) (headAtStructure m geo s k j) (s.Q (m.ix.i_1k k + j))
        ↔ s.Q (m.ix.i_1k k + j) = 0 ∨ 2 * m.C (m.ix.i_1k k + j) ^ 3 = 1)) :=
  ⟨fun hz hC => C173_inlet_iff h.physical.g_pos h.steady hk hz hC (h.proper.Au k hk),
    fun hz hC => C173_outlet_iff h.physical.g_pos h.steady hk hz hC (h.proper.Ad k hk),
    fun h0 _ hj ht hC hA => C173_structure_iff h.physical h.consistent h.steady hk h0 hj ht hC hA⟩

/-! ### C180, C181, C186 -/

/-- **C180 for the step.** Two states which passes keep, in a network without controls and lateral inflow, with the same sections,
inflows and fixed heads and all pipe ends under water, have the same flows, and the same heads and depths wherever they are joined
to a fixed head. -/
theorem C180_kept (h : Kept m geo inp wk s) (h' : Kept m geo inp wk' s') (rs : Resisting m) (bed : Bed m zI)
    (no : m.n_o = 0) (nw : m.n_w = 0) (np : m.n_p = 0)
    (lat : ∀ k, k < m.ix.NK → ∀ j, j ≤ m.ix.nk k → inp.Q_0Ik (m.ix.I_1k k + j) = 0)
    (sb : Submerged m s) (sb' : Submerged m s') (fixed : ∀ i, i < m.M → m.bc i = true → s.H i = s'.H i) :
    (∀ k, k < m.ix.NK → s.Qu k = s'.Qu k ∧ s.Qd k = s'.Qd k ∧
      ∀ j, j < m.ix.nk k → s.Q (m.ix.i_1k k + j) = s'.Q (m.ix.i_1k k + j)) ∧
    ∀ a b, a < m.M → m.bc a = true → Relation.ReflTransGen (Joins m) a b → s.H b = s'.H b ∧
      ∀ k, k < m.ix.NK → m.Ju k = b → ∀ j, j ≤ m.ix.nk k → s.h (m.ix.I_1k k + j) = s'.h (m.ix.I_1k k + j) := by
  have c := h.consistent
  have ps := h.physical
  refine ⟨fun k hk => ?_, fun a b ha hb ab => ?_⟩
  · have := C180_flows c ps rs bed no nw np lat sb sb' h.steady h'.steady fixed hk
    exact ⟨this.1, this.2.1, this.2.2.1⟩
  · have e := (C180_heads c ps rs bed no nw np lat sb sb' h.steady h'.steady fixed ab).2 ha hb
    refine ⟨e, ?_⟩
    rintro k hk rfl j hj
    exact C180_depths c ps rs bed no nw np lat sb sb' h.steady h'.steady fixed hk e hj

/-- **C181 for the step.** -/
theorem C181_kept (h : Kept m geo inp wk s) (h' : Kept m geo inp' wk' s') (rs : Resisting m) (bed : Bed m zI)
    (no : m.n_o = 0) (nw : m.n_w = 0) (np : m.n_p = 0)
    (lat : ∀ k, k < m.ix.NK → ∀ j, j ≤ m.ix.nk k → inp.Q_0Ik (m.ix.I_1k k + j) = 0)
    (lat' : ∀ k, k < m.ix.NK → ∀ j, j ≤ m.ix.nk k → inp'.Q_0Ik (m.ix.I_1k k + j) = 0)
    (sb : Submerged m s) (sb' : Submerged m s') (more : ∀ i, i < m.M → m.bc i = false → inp.Q_in i ≤ inp'.Q_in i)
    (higher : ∀ i, i < m.M → m.bc i = true → s.H i ≤ s'.H i) {a b : ℕ} (ha : a < m.M) (fx : m.bc a = true)
    (ab : Relation.ReflTransGen (Joins m) a b) :
    s.H b ≤ s'.H b ∧ ∀ k, k < m.ix.NK → m.Ju k = b → ∀ j, j ≤ m.ix.nk k → s.h (m.ix.I_1k k + j) ≤ s'.h (m.ix.I_1k k + j) := by
  have cm : Comparable m geo inp inp' s s' zI :=
    ⟨h.consistent, h.physical, rs, bed, no, nw, np, lat, lat', h'.physical, sb, sb', h.steady, h'.steady⟩
  refine ⟨C181_heads cm more higher ha fx ab, ?_⟩
  rintro k hk rfl j hj
  exact C181_depths cm more higher ha fx hk ab hj

/-- **C186 for the step.** -/
theorem C186_kept (h : Kept m geo inp wk s) (h' : Kept m geo inp' wk' s') (rs : Resisting m) (bed : Bed m zI)
    (lat : ∀ k, k < m.ix.NK → ∀ j, j ≤ m.ix.nk k → inp.Q_0Ik (m.ix.I_1k k + j) = 0)
    (lat' : ∀ k, k < m.ix.NK → ∀ j, j ≤ m.ix.nk k → inp'.Q_0Ik (m.ix.I_1k k + j) = 0)
    (sb : Submerged m s) (sb' : Submerged m s')
    (uo : ∀ o, o < m.n_o → inp'.u_o o = inp.u_o o) (uw : ∀ w, w < m.n_w → inp'.u_w w = inp.u_w w)
    (up : ∀ p, p < m.n_p → inp'.u_p p = inp.u_p p)
    (weirs : ∀ w, w < m.n_w → 0 ≤ (m.weir w).Cwr * (m.weir w).L ∧ 0 ≤ (m.weir w).Cwt * (m.weir w).s)
    (side : ∀ o, o < m.n_o →
      ((m.orifice o).bottom + (m.orifice o).opening (inp.u_o o) < max (s.H (m.Juo o)) (s.H (m.Jdo o)) ↔
        (m.orifice o).bottom + (m.orifice o).opening (inp.u_o o) < max (s'.H (m.Juo o)) (s'.H (m.Jdo o))))
    (more : ∀ i, i < m.M → m.bc i = false → inp.Q_in i ≤ inp'.Q_in i)
    (higher : ∀ i, i < m.M → m.bc i = true → s.H i ≤ s'.H i) {a b : ℕ} (ha : a < m.M) (fx : m.bc a = true)
    (ba : Relation.ReflTransGen (RunsTo m s) b a) : s.H b ≤ s'.H b :=
  C186_heads (zI := zI) ⟨h.consistent, h.physical, h'.physical, rs, bed, lat, lat', sb, sb', uo, uw, up, weirs, h.proper,
    h'.proper, side, h.steady, h'.steady⟩ more higher ha fx ba

/-! ### C185 -/

/-- **C185 for the step.** Take a network without controls and lateral inflow whose parts are in balance. Once the fixed heads are
high enough there is a state with all pipe ends under water which, if it lies inside the limits, every pass keeps; and every such
state a pass keeps has its flows. -/
theorem C185_kept (c : m.Consistent) (st : StartTables m) (ps : PhysicalStep m geo inp) (rs : Resisting m) (bed : Bed m zI)
    (he : m.end_method = .b) (hm : ∀ i, i < m.N → m.method i = 0 ∨ m.method i = 1)
    (Au : ∀ k, k < m.ix.NK → 0 < geo.A_u k ∧ 0 < geo.A_d k)
    (no : m.n_o = 0) (nw : m.n_w = 0) (np : m.n_p = 0)
    (lat : ∀ k, k < m.ix.NK → ∀ j, j ≤ m.ix.nk k → inp.Q_0Ik (m.ix.I_1k k + j) = 0)
    (parts : PartsInBalance m inp.Q_in) (f : ℕ → ℝ) :
    ∃ (T0 : ℝ) (q : ℕ → ℝ), ∀ T, T0 ≤ T →
      (∃ s, Submerged m s ∧ (∀ k, k < m.ix.NK → s.Qu k = q k) ∧
        (Inside m s → ∀ wk, CleanWork m wk.mats → Kept m geo (inp.holding fun i => f i + T) wk s)) ∧
      ∀ wk s, Kept m geo (inp.holding fun i => f i + T) wk s → Submerged m s → ∀ k, k < m.ix.NK → s.Qu k = q k := by
  obtain ⟨T0, q, h⟩ := C185_exists c ps rs bed no nw np lat parts f
  refine ⟨T0, q, fun T hT => ?_⟩
  obtain ⟨⟨s, sd, sb, hq⟩, u⟩ := h T hT
  refine ⟨⟨s, sb, hq, fun ins wk cw => ?_⟩, fun wk s kp sb => u s kp.steady sb⟩
  refine kept_of_steady c st { ps with dt_pos := ps.dt_pos, u_p := ps.u_p } cw he ⟨fun k hk => (Au k hk).1,
    fun k hk => (Au k hk).2, ?_, ?_, ?_⟩ ins hm sd <;> intro o ho <;> omega

/-! ### A case meeting the hypotheses -/

/-- The narrowing pipe of `EnergyLineProps` is kept. -/
theorem narrowKept : Kept narrowModel narrowGeo exSteadyInp exWork narrow := by
  have st := exStartTables false
  refine kept_of_steady narrowConsistent ⟨st.first, st.last⟩ narrowPhysical
    ⟨⟨fun _ _ _ _ => rfl⟩, ⟨fun _ _ _ _ => rfl, fun _ _ => rfl⟩, ⟨fun _ _ _ _ => rfl, fun _ _ => rfl⟩,
      ⟨fun _ _ _ _ => rfl, fun _ _ => rfl⟩⟩ rfl ?_ narrowInside (fun _ _ => Or.inl rfl) narrowSteady
  refine ⟨?_, ?_, ?_, ?_, ?_⟩ <;> intro k hk
  · norm_num [narrowGeo, exSteadyGeo, exGeo]
  · norm_num [narrowGeo, exSteadyGeo, exGeo]
  all_goals simp [narrowModel, exSteadyModel] at hk

example (j : ℕ) (hj : j < 2) :
    Manning (1 / 100) 1 (surfaceSlope narrowModel narrow 0 j) (velocity narrowModel narrowGeo narrow 0 j) :=
  (C176_kept (k := 0) (j := j) narrowKept (by norm_num [narrowModel, exSteadyModel, exModel]) (fun _ _ => rfl) hj rfl
    zero_le_one).1 rfl

theorem exSteadyKept : Kept exSteadyModel exSteadyGeo exSteadyInp exWork exSteady := by
  have st := exStartTables false
  refine kept_of_steady exSteadyConsistent ⟨st.first, st.last⟩ exSteadyPhysical
    ⟨⟨fun _ _ _ _ => rfl⟩, ⟨fun _ _ _ _ => rfl, fun _ _ => rfl⟩, ⟨fun _ _ _ _ => rfl, fun _ _ => rfl⟩,
      ⟨fun _ _ _ _ => rfl, fun _ _ => rfl⟩⟩ rfl ?_ exSteadyInside (fun _ _ => Or.inl rfl) exSteadyOk
  refine ⟨?_, ?_, ?_, ?_, ?_⟩ <;> intro k hk
  · norm_num [exSteadyGeo, exGeo]
  · norm_num [exSteadyGeo, exGeo]
  all_goals simp [exSteadyModel] at hk

/-- Every state of the sloping pipe which some pass keeps, with its ends under water, carries the inflow through. -/
example (wk' : Work) (s' : Hyd) (sb' : Submerged exSteadyModel s') (h' : Kept exSteadyModel exSteadyGeo exSteadyInp wk' s') :
    s'.Qu 0 = 1 := by
  have sb : Submerged exSteadyModel exSteady := by
    constructor <;> intro k _ <;> norm_num [exSteadyModel, exSteady, exModel]
  exact ((C180_kept (zI := fun I => 2 - I / 10) exSteadyKept h'
    ⟨fun _ _ => Or.inl rfl, fun _ _ h => by simp [exSteadyModel, exModel] at h⟩
    ⟨fun k _ j _ => by simp only [exSteadyModel, exModel]; push_cast; ring, fun k _ => by norm_num [exSteadyModel, exModel],
      fun k _ => by norm_num [exSteadyModel, exModel]⟩
    rfl rfl rfl (fun _ _ _ _ => rfl) sb sb' (fun i _ h => by simp [exSteadyModel, exModel] at h)).1 0
    (by norm_num [exSteadyModel, exModel])).1.symm

end

end Pipedream.Step
