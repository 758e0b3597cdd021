import Verif.SteadyControlProps
import Mathlib.Topology.Order.IntermediateValue

/-!
# C188: which inflows a pump can carry steadily
-/

namespace Pipedream.Control

noncomputable section

/-- Discharge of the pump curve at lift `d` and speed `u` (specification). -/
def pumpCurve (p : Pump) (u d : ℝ) : ℝ := (u / p.b * (p.a - d)) ^ (1 / p.c)

/-- The lift the curve is read at: the difference of levels, kept within the limits. -/
def liftAt (p : Pump) (Hu Hd : ℝ) : ℝ := max p.dHmin (min (Hd - Hu) p.dHmax)

/-- Least discharge of a running pump: that at the level at which it starts. -/
def leastFlow (p : Pump) (u Hd : ℝ) : ℝ := pumpCurve p u (liftAt p (p.z_inv + p.z_p) Hd)

/-- Greatest discharge: that at the least lift. -/
def mostFlow (p : Pump) (u : ℝ) : ℝ := pumpCurve p u p.dHmin

variable {p : Pump} {u Hd : ℝ}

/-! ### Lemmas -/

theorem liftAt_le (v : p.Valid) (Hu : ℝ) : liftAt p Hu Hd ≤ p.a :=
  (max_le v.range (min_le_right _ _)).trans v.shutoff

theorem pumpCurve_anti (v : p.Valid) (hu : 0 ≤ u) {d d' : ℝ} (h : d ≤ d') (ha : d' ≤ p.a) : pumpCurve p u d' ≤ pumpCurve p u d := by
  have b := v.b_pos
  have c := v.c_pos
  refine Real.rpow_le_rpow (mul_nonneg (by positivity) (by linarith)) (mul_le_mul_of_nonneg_left (by linarith) (by positivity))
    (by positivity)

theorem pumpFlow_running (v : p.Valid) {Hu : ℝ} (h : p.z_inv + p.z_p < Hu) : pumpFlow Hu Hd u p = pumpCurve p u (liftAt p Hu Hd) := by
  rw [pumpFlow, if_pos h, pumpHead_eq v]; rfl

theorem liftAt_continuous : Continuous fun Hu => liftAt p Hu Hd :=
  continuous_const.max ((continuous_const.sub continuous_id).min continuous_const)

/-! ### C188 -/

/-- **C188 (what a pump can pass).** Whatever the level of its source, a pump passes nothing, or at least its discharge at the
starting level and at most that at the least lift; every discharge above the former and up to the latter is passed at some level
above the starting level. -/
theorem C188_range (v : p.Valid) (hu : 0 ≤ u) :
    (∀ Hu, pumpFlow Hu Hd u p = 0 ∨ (leastFlow p u Hd ≤ pumpFlow Hu Hd u p ∧ pumpFlow Hu Hd u p ≤ mostFlow p u)) ∧
    (∀ q, leastFlow p u Hd < q → q ≤ mostFlow p u → ∃ Hu, p.z_inv + p.z_p < Hu ∧ pumpFlow Hu Hd u p = q) := by
  constructor
  · intro Hu
    by_cases h : p.z_inv + p.z_p < Hu
    · right
      rw [pumpFlow_running v h]
      refine ⟨pumpCurve_anti v hu (max_le_max_left _ (min_le_min_right _ (by linarith))) (liftAt_le v _),
        pumpCurve_anti v hu (le_max_left _ _) (liftAt_le v _)⟩
    · left
      rw [pumpFlow, if_neg h]
  · intro q lo hi
    have cont : Continuous fun Hu => pumpCurve p u (liftAt p Hu Hd) :=
      (continuous_const.mul (continuous_const.sub liftAt_continuous)).rpow_const
        fun _ => Or.inr (one_div_nonneg.mpr v.c_pos.le)
    set T := max (p.z_inv + p.z_p) (Hd - p.dHmin) with hT
    have top : pumpCurve p u (liftAt p T Hd) = mostFlow p u := by
      have : liftAt p T Hd = p.dHmin := by
        unfold liftAt
        refine max_eq_left ((min_le_left _ _).trans ?_)
        have := le_max_right (p.z_inv + p.z_p) (Hd - p.dHmin)
        linarith
      rw [this]; rfl
    obtain ⟨H, ⟨h1, _⟩, e⟩ := intermediate_value_Icc (le_max_left (p.z_inv + p.z_p) (Hd - p.dHmin)) cont.continuousOn
      (show q ∈ Set.Icc _ _ from ⟨lo.le, by rw [← hT, top]; exact hi⟩)
    have ne : p.z_inv + p.z_p ≠ H := by
      rintro rfl
      exact lo.ne e
    exact ⟨H, lt_of_le_of_ne h1 ne, by rw [pumpFlow_running v (lt_of_le_of_ne h1 ne)]; exact e⟩

/-- **C188 (the least discharge itself).** If at the starting level the lift lies within the limits, a pump at work passes more
than its discharge at that level. -/
theorem C188_above (v : p.Valid) (hu : 0 < u) (lo : p.dHmin < Hd - (p.z_inv + p.z_p)) (hi : Hd - (p.z_inv + p.z_p) ≤ p.dHmax)
    (Hu : ℝ) (run : p.z_inv + p.z_p < Hu) : leastFlow p u Hd < pumpFlow Hu Hd u p := by
  rw [pumpFlow_running v run]
  unfold leastFlow pumpCurve
  have b := v.b_pos
  have c := v.c_pos
  refine Real.rpow_lt_rpow (mul_nonneg (by positivity) (by linarith [liftAt_le (Hd := Hd) v (p.z_inv + p.z_p)])) ?_ (by positivity)
  refine mul_lt_mul_of_pos_left ?_ (by positivity)
  have e : liftAt p (p.z_inv + p.z_p) Hd = Hd - (p.z_inv + p.z_p) := by
    unfold liftAt; rw [min_eq_left hi, max_eq_right lo.le]
  have : liftAt p Hu Hd < Hd - (p.z_inv + p.z_p) := by
    unfold liftAt
    exact max_lt lo ((min_le_left _ _).trans_lt (by linarith))
  rw [e]; linarith

end

end Pipedream.Control

namespace Pipedream.Step

open Pipedream.Sweep Pipedream.Link Pipedream.Superlink Pipedream.Control Pipedream.Network

variable {m : Model} {geo : Geo} {inp : Inputs} {s : Hyd}

noncomputable section

/-- Superjunction `i` is drained by pump `p` and joined to nothing else. -/
structure Sump (m : Model) (i p : ℕ) : Prop where
  lt : i < m.M
  free : m.bc i = false
  pump : p < m.n_p
  src : m.Jup p = i
  dst : m.Jdp p ≠ i
  links : ∀ k, k < m.ix.NK → m.Ju k ≠ i ∧ m.Jd k ≠ i
  orifices : ∀ o, o < m.n_o → m.Juo o ≠ i ∧ m.Jdo o ≠ i
  weirs : ∀ w, w < m.n_w → m.Juw w ≠ i ∧ m.Jdw w ≠ i
  pumps : ∀ p', p' < m.n_p → p' ≠ p → m.Jup p' ≠ i ∧ m.Jdp p' ≠ i

theorem netInto_apart {n : ℕ} {Ju Jd : ℕ → ℕ} {i : ℕ} (h : ∀ k, k < n → Ju k ≠ i ∧ Jd k ≠ i) (Qu Qd : ℕ → ℝ) :
    netInto n Ju Jd Qu Qd i = 0 := by
  unfold netInto
  refine Finset.sum_eq_zero fun k hk => ?_
  have := h k (Finset.mem_range.mp hk)
  simp [this.1, this.2]

theorem netInto_pump {n : ℕ} {Ju Jd : ℕ → ℕ} {i p : ℕ} (hp : p < n) (hu : Ju p = i) (hd : Jd p ≠ i)
    (h : ∀ k, k < n → k ≠ p → Ju k ≠ i ∧ Jd k ≠ i) (Q : ℕ → ℝ) : netInto n Ju Jd Q Q i = -Q p := by
  unfold netInto
  rw [Finset.sum_eq_single_of_mem p (Finset.mem_range.mpr hp)]
  · simp [hu, hd]
  · intro k hk ne
    have := h k (Finset.mem_range.mp hk) ne
    simp [this.1, this.2]

/-- **C188 (sumps).** If a network is steady, the pump of a sump passes what flows into the sump: nothing, or at least the pump's
discharge at its starting level and at most that at its least lift. With any other inflow the network has no steady state. -/
theorem C188_sump {i p : ℕ} (h : Sump m i p) (v : (m.pump p).Valid) (hu : 0 ≤ inp.u_p p) (sd : Steady m geo inp s) :
    s.Qp p = inp.Q_in i ∧ (inp.Q_in i = 0 ∨
      (leastFlow (m.pump p) (inp.u_p p) (s.H (m.Jdp p)) ≤ inp.Q_in i ∧ inp.Q_in i ≤ mostFlow (m.pump p) (inp.u_p p))) := by
  have b := sd.balance i h.lt h.free
  rw [netInto_apart h.links, netInto_apart h.orifices, netInto_apart h.weirs, netInto_pump h.pump h.src h.dst h.pumps] at b
  have e : s.Qp p = inp.Q_in i := by linarith
  refine ⟨e, ?_⟩
  rw [← e, sd.pumps p h.pump]
  exact (C188_range v hu).1 _

/-- **C188 (no rest for small inflows).** A sump which receives something, but less than its pump discharges at the starting
level, is never steady. -/
theorem C188_restless {i p : ℕ} (h : Sump m i p) (v : (m.pump p).Valid) (hu : 0 ≤ inp.u_p p) (pos : 0 < inp.Q_in i)
    (small : inp.Q_in i < leastFlow (m.pump p) (inp.u_p p) (s.H (m.Jdp p))) : ¬ Steady m geo inp s := fun sd => by
  rcases (C188_sump h v hu sd).2 with e | ⟨e, _⟩ <;> linarith

/-- **C188 (every step moves something).** Such a network is never left as it is by a step. -/
theorem C188_moves {wk : Work} {prev cur : Hyd} {co : Coef ℝ} {x : ℕ → ℝ} {i p : ℕ} (h : Sump m i p) (v : (m.pump p).Valid)
    (pos : 0 < inp.Q_in i) (small : inp.Q_in i < leastFlow (m.pump p) (inp.u_p p) (cur.H (m.Jdp p)))
    (c : m.Consistent) (st : StartTables m) (ps : PhysicalStep m geo inp) (cw : CleanWork m wk.mats) (he : m.end_method = .b)
    (pc : ProperControls m geo inp cur) (ins : Inside m cur) (ag : SameState m cur prev) (pa : Pass m geo inp wk prev cur co x) :
    ¬ SameState m cur (m.advance geo inp wk cur co x) := fun rep =>
  C188_restless h v (ps.u_p p h.pump) pos small (C100_reproduced_steady c st ps cw he pc ins ag pa rep)

/-! ### A case meeting the hypotheses -/

/-- A sump (0) pumped to a held level (1): curve `10 - Q`, lifts from 0 to 10, starting level 1. -/
def sumpModel : Model :=
  { exModel false with
    ix := { NK := 0, nk := fun _ => 2, I_1k := fun _ => 0, i_1k := fun _ => 0 }, N := 0
    bc := fun i => i == 1, n_o := 0, n_w := 0, pump := fun _ => ⟨1, 0, 10, 0, 10, 1, 1⟩ }

theorem sump_ok : Sump sumpModel 0 0 := by
  refine ⟨by norm_num [sumpModel, exModel], rfl, by norm_num [sumpModel, exModel], rfl, by norm_num [sumpModel, exModel],
    fun k hk => absurd hk (Nat.not_lt_zero _), fun k hk => absurd hk (Nat.not_lt_zero _), fun k hk => absurd hk (Nat.not_lt_zero _),
    fun p' hp ne => ?_⟩
  simp [sumpModel, exModel] at hp
  omega

theorem sump_valid : (sumpModel.pump 0).Valid := by constructor <;> norm_num [sumpModel]

/-- Pumping to a level of 6 at full speed, the sump is never steady with an inflow of 3, ... -/
example (s : Hyd) (h1 : s.H 1 = 6) :
    ¬ Steady sumpModel exGeo { exInp with u_p := fun _ => 1, Q_in := fun i => if i = 0 then 3 else 0 } s := by
  refine C188_restless sump_ok sump_valid (by norm_num) (by norm_num) ?_
  have e : sumpModel.Jdp 0 = 1 := rfl
  rw [e, h1]
  norm_num [leastFlow, pumpCurve, liftAt, sumpModel]

/-- ... but with an inflow of 7 the level 3 is. -/
example : pumpFlow 3 6 1 (sumpModel.pump 0) = 7 := by
  rw [pumpFlow_running sump_valid (by norm_num [sumpModel])]
  norm_num [pumpCurve, liftAt, sumpModel]

end

end Pipedream.Step
