import Verif.QualityImportModel
import Verif.QualityMass
import Verif.StepProps
import Verif.GeometryProps
import Mathlib.Analysis.Calculus.Deriv.MeanValue
import Mathlib.Analysis.Real.Pi.Bounds

/-!
# Properties of the coupling between hydraulics and water quality

C78: the flows and volumes handed to the water-quality model balance water. C79: the flow areas handed over
are those of the pipes. C59: the quality step without `dt`.
-/

set_option linter.unusedSectionVars false

namespace Pipedream.Quality

open Pipedream.Link (PyErr)
open Pipedream.Step (Model Geo Hyd Pass PhysicalStep CleanWork Unclipped endDepthU endDepthD)

/-! ### C59: step size -/

/-- **C59 (quality), negation.** Without `dt` the water-quality step raises for every hydraulic state. -/
theorem C59_quality_never_completes (m : Model) (sh : Shapes) (geo : Geo) (elapsed : ℝ) (prev next : Hyd) :
    beginStep m sh geo none elapsed prev next = .error .typeError ∨
    beginStep m sh geo none elapsed prev next = .error .valueError := by
  unfold beginStep importStates areaWQ
  split_ifs
  · exact Or.inl rfl
  · exact Or.inl rfl
  · exact Or.inr rfl

/-- **C59 (quality), explicit step size.** With a non-zero `dt` and a supported first link the step uses it. -/
theorem C59_quality_explicit_partial (m : Model) (sh : Shapes) (geo : Geo) (elapsed dt : ℝ) (prev next : Hyd)
    (hdt : dt ≠ 0) (hc : sh.code 0 = 1 ∨ sh.code 0 = 3) :
    beginStep m sh geo (some dt) elapsed prev next = .ok (hydro m sh geo dt prev next, dt) := by
  unfold beginStep importStates areaWQ
  rcases hc with h | h <;> simp [h, hdt, bind, Except.bind, pure, Except.pure]

/-! ### C79: areas -/

/-- **C79 (which networks are accepted).** The import raises `ValueError` exactly when the first link of the
network is neither circular nor open rectangular — the shapes of all other links are not looked at. -/
theorem C79_accepted_iff (m : Model) (sh : Shapes) (geo : Geo) (dt : ℝ) (prev next : Hyd) (hdt : dt ≠ 0) :
    ((∃ y, importStates m sh geo (some dt) prev next = .ok y) ↔ sh.code 0 = 1 ∨ sh.code 0 = 3) ∧
    (importStates m sh geo (some dt) prev next = .error .valueError ↔ ¬ (sh.code 0 = 1 ∨ sh.code 0 = 3)) := by
  unfold importStates areaWQ
  by_cases h1 : sh.code 0 = 1
  · simp [h1, hdt, bind, Except.bind]
  · by_cases h3 : sh.code 0 = 3
    · simp [h3, hdt, bind, Except.bind]
    · simp [h1, h3, bind, Except.bind]

/-- **C79 (no other area).** Whatever area function passes the shape test is the one every imported area is
computed with. -/
theorem C79_one_formula {code0 : ℤ} {d B h1 h2 a : ℝ} (h : areaWQ code0 d B h1 h2 = .ok a) :
    a = areaBy code0 d B h1 h2 := by
  unfold areaWQ at h
  unfold areaBy
  split_ifs at h ⊢ <;> simpa using h.symm

example : areaWQ 3 1 2 1 3 = .ok 4 := by norm_num [areaWQ]

/-- **C79 (one shape, circular).** If the first link is circular, the area of every link is the circular
formula of the hydraulic model at the new depths. -/
theorem C79_circular_partial (m : Model) (sh : Shapes) (geo : Geo) (dt : ℝ) (prev next : Hyd) (p : Geometry.GP) (i : ℕ)
    (h : sh.code 0 = 1) (hp : p.g1 = sh.g1 i) :
    (hydro m sh geo dt prev next).A i
      = Geometry.area .circular p (next.h (sh.Ik i)) (next.h (sh.Ik i + 1)) := by
  simp [hydro, areaBy, h, Geometry.area, hp]

/-- **C79 (one shape, open rectangular).** If the first link is open rectangular, the area of an open
rectangular link is that of the hydraulic model as long as the mean depth is between 0 and the section height. -/
theorem C79_rect_partial (m : Model) (sh : Shapes) (geo : Geo) (dt : ℝ) (prev next : Hyd) (p : Geometry.GP) (i : ℕ)
    (h : sh.code 0 = 3) (hB : geo.B i = p.g2)
    (h0 : 0 ≤ next.h (sh.Ik i) + next.h (sh.Ik i + 1)) (h1 : next.h (sh.Ik i) + next.h (sh.Ik i + 1) ≤ 2 * p.g1) :
    (hydro m sh geo dt prev next).A i
      = Geometry.area .rectOpen p (next.h (sh.Ik i)) (next.h (sh.Ik i + 1)) := by
  have e : Geometry.depth (next.h (sh.Ik i)) (next.h (sh.Ik i + 1)) p.g1
      = (next.h (sh.Ik i) + next.h (sh.Ik i + 1)) / 2 := by
    rw [Geometry.depth_eq, max_eq_left (by linarith), min_eq_left (by linarith)]
  simp only [hydro, areaBy, h, Geometry.area, Geometry.rectA, e, hB]
  norm_num
  ring

/-- **C79, negation (mixed shapes).** A circular link in a network whose first link is open rectangular gets
width times depth: at half depth that is not the area of the circle segment. -/
theorem C79_mixed_violated (m : Model) (sh : Shapes) (geo : Geo) (dt : ℝ) (prev next : Hyd) (p : Geometry.GP) (i : ℕ)
    (hc : sh.code 0 = 3) (hd : 0 < p.g1)
    (hB : geo.B i = Geometry.topWidth .circular p (prev.h (sh.Ik i)) (prev.h (sh.Ik i + 1)))
    (h1 : prev.h (sh.Ik i) = p.g1 / 2) (h2 : prev.h (sh.Ik i + 1) = p.g1 / 2)
    (h3 : next.h (sh.Ik i) = p.g1 / 2) (h4 : next.h (sh.Ik i + 1) = p.g1 / 2) :
    (hydro m sh geo dt prev next).A i
      ≠ Geometry.area .circular p (next.h (sh.Ik i)) (next.h (sh.Ik i + 1)) := by
  have hr : p.g1 / 2 / (p.g1 / 2) = 1 := div_self (by positivity)
  have hw : Geometry.topWidth .circular p (p.g1 / 2) (p.g1 / 2) = p.g1 := by
    simp only [Geometry.topWidth, Geometry.circularB, Geometry.wet_same (show 0 ≤ p.g1 / 2 by positivity),
      if_pos (show p.g1 / 2 < p.g1 by linarith), Geometry.circTheta_eq hd (show 0 ≤ p.g1 / 2 by positivity)
      (show p.g1 / 2 ≤ p.g1 by linarith)]
    rw [hr, sub_self, Real.arccos_zero, Real.sin_pi_div_two]
    ring
  have ha : Geometry.area .circular p (p.g1 / 2) (p.g1 / 2) = (p.g1 / 2) ^ 2 * (Real.pi / 2) := by
    simp only [Geometry.area, Geometry.circularA_eq _ _ hd,
      Geometry.depth_same (show 0 ≤ p.g1 / 2 by positivity) (show p.g1 / 2 ≤ p.g1 by linarith), Geometry.circF]
    rw [hr, sub_self, Real.arccos_zero, Real.sin_pi_div_two, Real.cos_pi_div_two]
    ring
  rw [h1, h2, hw] at hB
  simp only [hydro, areaBy, hc, hB, h3, h4, ha]
  have hpi := Real.pi_lt_d2
  have hd2 : 0 < p.g1 ^ 2 := by positivity
  norm_num
  intro e
  have : p.g1 ^ 2 * (4 - Real.pi) = 0 := by linarith
  rcases mul_eq_zero.mp this with h | h <;> linarith

/-- **C79, negation (end stretches).** The diameter used for the end stretches of superlink `k` is that of link
number `k`, whatever the first link of the superlink is: two hydraulic models that differ only in the
diameters of other links get the same end areas. -/
theorem C79_end_diameter (m : Model) (sh sh' : Shapes) (geo : Geo) (dt : ℝ) (prev next : Hyd) (k : ℕ)
    (hc : sh.code 0 = sh'.code 0) (hk : sh.g1 k = sh'.g1 k) :
    (hydro m sh geo dt prev next).A_u k = (hydro m sh' geo dt prev next).A_u k ∧
    (hydro m sh geo dt prev next).A_d k = (hydro m sh' geo dt prev next).A_d k := by
  simp [hydro, hc, hk]

/-- **C79, negation, witness.** A superlink whose upstream end lies in a pipe of diameter 2 (its first link is
link 1), full to the crown, gets the area of link 0, of diameter 1. -/
theorem C79_end_violated (m : Model) (geo : Geo) (dt : ℝ) (prev next : Hyd) (h1 : m.ix.i_1k 0 = 1)
    (hz : m.z_inv (m.Ju 0) = m.z_uk 0)
    (hH : next.H (m.Ju 0) - m.z_uk 0 = 2) (hh : next.h (m.ix.I_1k 0) = 2) (Ik : ℕ → ℕ) :
    let sh : Shapes := ⟨fun _ => 1, fun i => if i = 0 then 1 else 2, Ik⟩
    (hydro m sh geo dt prev next).A_u 0
      ≠ Geometry.circularA (next.H (m.Ju 0) - m.z_uk 0) (next.h (m.ix.I_1k 0)) (sh.g1 (m.ix.i_1k 0)) := by
  intro sh
  simp only [hydro, areaBy, sh, hz, hH, hh, h1, if_true, one_ne_zero, if_false]
  rw [Geometry.circularA_eq _ _ one_pos, Geometry.circularA_eq _ _ two_pos,
    Geometry.depth_full (by norm_num), Geometry.depth_full (by norm_num), Geometry.circF_full one_pos,
    Geometry.circF_full two_pos]
  have := Real.pi_pos
  intro e
  linarith

/-! ### C78: water balance -/

section
variable {m : Model} {sh : Shapes} {geo : Geo} {inp : Step.Inputs} {wk : Step.Work} {prev : Hyd}
  {co : Sweep.Coef ℝ} {x : ℕ → ℝ} {bc : ℕ → Bool} {c_bc : Option (ℕ → ℝ)} {c_0j c_0I : ℕ → ℝ}

/-- The junction upstream of a link, as the constructor tabulates it. -/
def Shapes.Tab (sh : Shapes) (m : Model) : Prop :=
  ∀ k, k < m.ix.NK → ∀ j, j < m.ix.nk k → sh.Ik (m.ix.i_1k k + j) = m.ix.I_1k k + j

/-- **C78 (junctions).** After an unclipped hydraulic step the imported flows balance water at every junction
of every superlink, whatever the shapes of the pipes. -/
theorem C78_junctions (c : m.Consistent) (ps : PhysicalStep m geo inp)
    {cur : Hyd} (p : Pass m geo inp wk prev cur co x) (he : m.end_method = .b)
    (uc : Unclipped m x (m.advance geo inp wk cur co x)
      (endDepthU m geo wk cur co (m.advance geo inp wk cur co x).H)
      (endDepthD m geo wk cur co (m.advance geo inp wk cur co x).H))
    (tab : sh.Tab m) {k j : ℕ} (hk : k < m.ix.NK) (hj : j ≤ m.ix.nk k) :
    let y := hydro m sh geo inp.dt prev (m.advance geo inp wk cur co x)
    y.A_S (m.ix.I_1k k + j) * (y.h (m.ix.I_1k k + j) - y.h_prev (m.ix.I_1k k + j)) / y.dt
      + nodeQout (wiring m bc) y k j - nodeQin (wiring m bc) y k j = inp.Q_0Ik (m.ix.I_1k k + j) := by
  intro y
  have S := (Step.C01_step c ps p he uc hk).continuity j hj
  obtain ⟨eE, eD⟩ := Link.node_coeffs_eq (y := m.nodeIn geo inp prev) (c.layout.pos k hk) (c.nodes k hk) hj
  simp only [Sweep.Coef.slice] at S
  rw [p.coefs.2.1, p.coefs.2.2, eE, eD] at S
  simp only [Model.nodeIn, Link.junctionArea, Sweep.qIn, Sweep.qOut] at S
  have dt0 := ps.dt_pos.ne'
  have hn := c.layout.pos k hk
  simp only [y, nodeQout, nodeQin, wiring, hydro, faceUp, faceDn]
  by_cases h0 : j = 0
  · subst h0
    have h1 : (0:ℕ) ≠ m.ix.nk k := by omega
    have t := tab k hk 0 (by omega)
    simp only [h1, if_false, if_true, add_zero] at S t ⊢
    rw [t]
    linear_combination S
  · obtain ⟨i, rfl⟩ : ∃ i, j = i + 1 := ⟨j - 1, by omega⟩
    have t1 := tab k hk i (by omega)
    have e : m.ix.i_1k k + (i + 1) - 1 = m.ix.i_1k k + i := by omega
    by_cases h1 : i + 1 = m.ix.nk k
    · simp only [h1, if_true] at S ⊢
      rw [← h1] at S ⊢
      simp only [Nat.add_sub_cancel, e, Nat.add_eq_zero_iff, one_ne_zero, and_false, if_false] at S ⊢
      rw [t1, add_assoc (m.ix.I_1k k) i 1]
      linear_combination S
    · have t := tab k hk (i + 1) (by omega)
      simp only [h0, h1, if_false, Nat.add_sub_cancel, e] at S ⊢
      rw [t1, t, add_assoc (m.ix.I_1k k) i 1]
      linear_combination S

/-- **C78 (end stretches).** With an open rectangular first link the imported flows balance water in both end
stretches of every superlink. -/
theorem C78_end_stretches (next : Hyd) {dt : ℝ} (hc : sh.code 0 = 3) (k : ℕ) :
    let y := hydro m sh geo dt prev next
    y.dx_u k * (y.A_u k - y.A_u_prev k) / y.dt + y.Qu_dn k - y.Qu_up k = 0 ∧
    y.dx_d k * (y.A_d k - y.A_d_prev k) / y.dt + y.Qd_dn k - y.Qd_up k = 0 := by
  intro y
  simp only [y, hydro, areaBy, hc, faceUp, faceDn]
  norm_num
  constructor <;> ring

/-- **C78 (links).** The imported states balance water in a link exactly when the change of its flow area is
the top width at the beginning of the step times the mean rise of the water surface. -/
theorem C78_link_iff (next : Hyd) {dt : ℝ} (hdt : dt ≠ 0) {i : ℕ} (hdx : m.dx i ≠ 0) :
    let y := hydro m sh geo dt prev next
    y.dx i * (y.A i - y.A_prev i) / y.dt + y.Q_dn i - y.Q_up i = 0 ↔
    y.A i - y.A_prev i = geo.B i * ((next.h (sh.Ik i) - prev.h (sh.Ik i)) / 2
      + (next.h (sh.Ik i + 1) - prev.h (sh.Ik i + 1)) / 2) := by
  intro y
  simp only [y, hydro, faceUp, faceDn]
  set A1 := areaBy (sh.code 0) (sh.g1 i) (geo.B i) (next.h (sh.Ik i)) (next.h (sh.Ik i + 1))
  constructor
  · intro h
    field_simp at h
    have h2 : m.dx i * (A1 - geo.A i) = m.dx i * (geo.B i * ((next.h (sh.Ik i) - prev.h (sh.Ik i)) / 2
      + (next.h (sh.Ik i + 1) - prev.h (sh.Ik i + 1)) / 2)) := by
      norm_num at h
      linear_combination h
    exact mul_left_cancel₀ hdx h2
  · intro h
    rw [h]
    ring

/-- Open rectangular links whose areas and widths are those of the state at the beginning of the step, with
the mean depth between the bed and the top of the section. -/
structure OpenRect (m : Model) (sh : Shapes) (geo : Geo) (prev : Hyd) (width : ℕ → ℝ) : Prop where
  code : sh.code 0 = 3
  area : ∀ k, k < m.ix.NK → ∀ j, j < m.ix.nk k → geo.A (m.ix.i_1k k + j)
    = Geometry.rectA (prev.h (m.ix.I_1k k + j)) (prev.h (m.ix.I_1k k + j + 1)) (sh.g1 (m.ix.i_1k k + j))
      (width (m.ix.i_1k k + j))
  wid : ∀ k, k < m.ix.NK → ∀ j, j < m.ix.nk k → geo.B (m.ix.i_1k k + j) = width (m.ix.i_1k k + j)
  wet : ∀ k, k < m.ix.NK → ∀ j, j < m.ix.nk k →
    0 ≤ prev.h (m.ix.I_1k k + j) + prev.h (m.ix.I_1k k + j + 1) ∧
    prev.h (m.ix.I_1k k + j) + prev.h (m.ix.I_1k k + j + 1) ≤ 2 * sh.g1 (m.ix.i_1k k + j)

/-- The control flows reported by the hydraulic model are those of its linearised balance. -/
structure ExactControls (m : Model) (geo : Geo) (inp : Step.Inputs) (wk : Step.Work) (cur : Hyd) (co : Sweep.Coef ℝ)
    (next : Hyd) : Prop where
  o : ∀ q, q < m.n_o → next.Qo q = (m.net geo inp wk cur co).orifices.Q next.H q
  w : ∀ q, q < m.n_w → next.Qw q = (m.net geo inp wk cur co).weirs.Q next.H q
  p : ∀ q, q < m.n_p → next.Qp q = (m.net geo inp wk cur co).pumps.Q next.H q

theorem ctrlQ_eq (C : Network.Ctrls ℝ) (H Q : ℕ → ℝ) (h : ∀ q, q < C.n → Q q = C.Q H q) (i : ℕ) :
    ctrlQ C.n C.Ju C.Jd Q i = - C.inflow H i := by
  unfold ctrlQ Network.Ctrls.inflow
  rw [← Finset.sum_neg_distrib]
  refine Finset.sum_congr rfl fun q hq => ?_
  rw [h q (Finset.mem_range.mp hq)]
  ring

/-- **C78 (superjunctions).** At a superjunction with free head the imported states balance water exactly when
the pipe ends that were dry at the beginning of the step have no storage to fill: the imported end flows
always include the storage of the end stretch, the head equation only that of ends whose invert is below the
water level. -/
theorem C78_superjunction_iff (c : m.Consistent) (cw : CleanWork m wk.mats)
    {cur : Hyd} (p : Pass m geo inp wk prev cur co x)
    (hclip : ∀ j, j < m.M → m.z_inv j ≤ x j ∧ x j ≤ m.z_inv j + m.max_depth j)
    (ec : ExactControls m geo inp wk cur co (m.advance geo inp wk cur co x))
    {i : ℕ} (hi : i < m.M) (hb : m.bc i = false) :
    let next := m.advance geo inp wk cur co x
    let y := hydro m sh geo inp.dt prev next
    ((y.V i - y.V_prev i) / y.dt + superQ (wiring m bc) y i = inp.Q_in i ↔
    (∑ k ∈ Finset.range m.ix.NK,
      ((if m.Ju k = i then m.dx_uk k * geo.B_u k * (1 - Superlink.theta (cur.H (m.Ju k)) (m.z_uk k)) / (2 * inp.dt) else 0)
      + (if m.Jd k = i then m.dx_dk k * geo.B_d k * (1 - Superlink.theta (cur.H (m.Jd k)) (m.z_dk k)) / (2 * inp.dt) else 0)))
      * (next.H i - prev.H i) = 0) := by
  intro next y
  have bal := Step.C07_step c cw p hclip i hi hb
  change Network.Balanced _ _ _ _ next.H i at bal
  unfold Network.Balanced at bal
  have co1 := ctrlQ_eq (m.net geo inp wk cur co).orifices next.H next.Qo ec.o i
  have co2 := ctrlQ_eq (m.net geo inp wk cur co).weirs next.H next.Qw ec.w i
  have co3 := ctrlQ_eq (m.net geo inp wk cur co).pumps next.H next.Qp ec.p i
  have key : (∑ k ∈ Finset.range m.ix.NK,
        ((if m.Ju k = i then y.Qu_up k else 0) - (if m.Jd k = i then y.Qd_dn k else 0)))
      = - (m.net geo inp wk cur co).links.inflow next.H i
        + (m.net geo inp wk cur co).links.xiSum i * (next.H i - prev.H i)
        + (∑ k ∈ Finset.range m.ix.NK,
      ((if m.Ju k = i then m.dx_uk k * geo.B_u k * (1 - Superlink.theta (cur.H (m.Ju k)) (m.z_uk k)) / (2 * inp.dt) else 0)
      + (if m.Jd k = i then m.dx_dk k * geo.B_d k * (1 - Superlink.theta (cur.H (m.Jd k)) (m.z_dk k)) / (2 * inp.dt) else 0)))
      * (next.H i - prev.H i) := by
    unfold Network.Links.inflow Network.Links.xiSum
    rw [Finset.sum_mul, Finset.sum_mul, ← Finset.sum_neg_distrib]
    change _ = (∑ k ∈ Finset.range m.ix.NK, _) + (∑ k ∈ Finset.range m.ix.NK, _) + (∑ k ∈ Finset.range m.ix.NK, _)
    rw [← Finset.sum_add_distrib, ← Finset.sum_add_distrib]
    refine Finset.sum_congr rfl fun k _ => ?_
    have e1 : (m.net geo inp wk cur co).links.Qu next.H k = next.Qu k := rfl
    have e2 : (m.net geo inp wk cur co).links.Qd next.H k = next.Qd k := rfl
    have e3 : (m.net geo inp wk cur co).links.Ju k = m.Ju k := rfl
    have e4 : (m.net geo inp wk cur co).links.Jd k = m.Jd k := rfl
    rw [e1, e2, e3, e4]
    have e5 : (m.net geo inp wk cur co).links.xi_u k
      = m.dx_uk k * geo.B_u k * Superlink.theta (cur.H (m.Ju k)) (m.z_uk k) / (2 * inp.dt) := rfl
    have e6 : (m.net geo inp wk cur co).links.xi_d k
      = m.dx_dk k * geo.B_d k * Superlink.theta (cur.H (m.Jd k)) (m.z_dk k) / (2 * inp.dt) := rfl
    rw [e5, e6]
    simp only [y, hydro, faceUp, faceDn]
    by_cases h1 : m.Ju k = i <;> by_cases h2 : m.Jd k = i <;> simp only [h1, h2, if_true, if_false] <;> ring
  have hs : superQ (wiring m bc) y i = (∑ k ∈ Finset.range m.ix.NK,
        ((if m.Ju k = i then y.Qu_up k else 0) - (if m.Jd k = i then y.Qd_dn k else 0)))
      + ctrlQ (m.net geo inp wk cur co).orifices.n (m.net geo inp wk cur co).orifices.Ju
          (m.net geo inp wk cur co).orifices.Jd next.Qo i
      + ctrlQ (m.net geo inp wk cur co).weirs.n (m.net geo inp wk cur co).weirs.Ju
          (m.net geo inp wk cur co).weirs.Jd next.Qw i
      + ctrlQ (m.net geo inp wk cur co).pumps.n (m.net geo inp wk cur co).pumps.Ju
          (m.net geo inp wk cur co).pumps.Jd next.Qp i := rfl
  have hV : (y.V i - y.V_prev i) / y.dt = (m.net geo inp wk cur co).As i / inp.dt * (next.H i - prev.H i) := by
    change (geo.As i * (next.H i - m.z_inv i) - geo.As i * (prev.H i - m.z_inv i)) / inp.dt
      = geo.As i / inp.dt * (next.H i - prev.H i)
    ring
  rw [hs, co1, co2, co3, key, hV]
  constructor <;> intro h <;> linarith

/-- **C78.** Open rectangular pipes, one unclipped pass from the saved state, pipe ends under water, free
superjunctions of the quality model free in the hydraulic model too: the imported states balance water in
every control volume — so C55, C74 and C75 apply to the coupled models. -/
theorem C78_water_balance_partial (c : m.Consistent) (ps : PhysicalStep m geo inp) (cw : CleanWork m wk.mats)
    (p : Pass m geo inp wk prev prev co x) (he : m.end_method = .b)
    (uc : Unclipped m x (m.advance geo inp wk prev co x)
      (endDepthU m geo wk prev co (m.advance geo inp wk prev co x).H)
      (endDepthD m geo wk prev co (m.advance geo inp wk prev co x).H))
    (ec : ExactControls m geo inp wk prev co (m.advance geo inp wk prev co x))
    (tab : sh.Tab m) {width : ℕ → ℝ} (rect : OpenRect m sh geo prev width)
    (hbc : ∀ i, i < m.M → bc i = false → m.bc i = false)
    (hu : ∀ k, k < m.ix.NK → m.z_uk k ≤ prev.H (m.Ju k)) (hd : ∀ k, k < m.ix.NK → m.z_dk k ≤ prev.H (m.Jd k)) :
    WaterBalance (wiring m bc) (hydro m sh geo inp.dt prev (m.advance geo inp wk prev co x))
      (inputs inp c_bc c_0j c_0I) where
  link k hk j hj := by
    have t := tab k hk j hj
    have hI : m.ix.i_1k k + j < m.N := lt_of_lt_of_le (Nat.add_lt_add_left hj _) (c.inN k hk)
    refine (C78_link_iff (m := m) (sh := sh) (geo := geo) (prev := prev)
      (m.advance geo inp wk prev co x) ps.dt_pos.ne' (ps.dx_pos _ hI).ne').2 ?_
    obtain ⟨w0, w1⟩ := rect.wet k hk j hj
    have hA : geo.A (m.ix.i_1k k + j) = width (m.ix.i_1k k + j)
        * ((prev.h (m.ix.I_1k k + j) + prev.h (m.ix.I_1k k + j + 1)) / 2) := by
      rw [rect.area k hk j hj, Geometry.rectA, Geometry.depth_eq, max_eq_left (by linarith), min_eq_left (by linarith)]
      ring
    simp only [hydro, areaBy, rect.code, t, rect.wid k hk j hj, hA]
    norm_num
    ring
  node k hk j hj := C78_junctions c ps p he uc tab hk hj
  up k hk := (C78_end_stretches _ rect.code k).1
  dn k hk := (C78_end_stretches _ rect.code k).2
  super i hi hb := by
    refine (C78_superjunction_iff c cw p uc.heads ec hi (hbc i hi hb)).2 ?_
    rw [Finset.sum_eq_zero, zero_mul]
    intro k hk
    have hk := Finset.mem_range.mp hk
    simp only [Superlink.theta, ge_iff_le, if_pos (hu k hk), if_pos (hd k hk), sub_self, mul_zero, zero_div,
      ite_self, add_zero]

theorem wiring_wired (c : m.Consistent) : Wired (wiring m bc) :=
  ⟨c.layout, c.nodes, c.Ju, c.Jd, c.Juo, c.Jdo, c.Juw, c.Jdw, c.Jup, c.Jdp⟩

/-- **C78 (coupled models).** Under the conditions of `C78_water_balance_partial` and with positive dispersion,
volumes and lengths, the coupled quality step keeps a uniform concentration exactly, wherever the hydraulic
step moved the water. -/
theorem C78_coupled_uniform_partial (c : m.Consistent) (ps : PhysicalStep m geo inp) (cw : CleanWork m wk.mats)
    (p : Pass m geo inp wk prev prev co x) (he : m.end_method = .b)
    (uc : Unclipped m x (m.advance geo inp wk prev co x)
      (endDepthU m geo wk prev co (m.advance geo inp wk prev co x).H)
      (endDepthD m geo wk prev co (m.advance geo inp wk prev co x).H))
    (ec : ExactControls m geo inp wk prev co (m.advance geo inp wk prev co x))
    (tab : sh.Tab m) {width : ℕ → ℝ} (rect : OpenRect m sh geo prev width)
    (hbc : ∀ i, i < m.M → bc i = false → m.bc i = false)
    (hu : ∀ k, k < m.ix.NK → m.z_uk k ≤ prev.H (m.Ju k)) (hd : ∀ k, k < m.ix.NK → m.z_dk k ≤ prev.H (m.Jd k))
    {pr : Params ℝ} {v lo : ℝ} {hi : Option ℝ} {qw : Work ℝ} {cc : Conc ℝ} {z : ℕ → ℝ}
    (P : Physical (wiring m bc) pr (hydro m sh geo inp.dt prev (m.advance geo inp wk prev co x))
      (inputs inp c_bc c_0j c_0I))
    (hm : CleanMats (wiring m bc) qw.mats) (hlo : lo ≤ v) (hhi : ∀ q, hi = some q → v ≤ q)
    (hK : ∀ i, pr.Kr i = 0) (hKI : ∀ i, pr.KrI i = 0) (hKj : ∀ i, pr.Krj i = 0)
    (hcc : SameOn (wiring m bc) cc (Conc.const v))
    (hb : ∀ i, i < m.M → bc i = true → c_bc.getD cc.j i = v)
    (h0j : ∀ i, c_0j i = v) (h0I : ∀ i, c_0I i = v)
    (hz : Solved (wiring m bc) pr (hydro m sh geo inp.dt prev (m.advance geo inp wk prev co x))
      (inputs inp c_bc c_0j c_0I) qw cc z) :
    SameOn (wiring m bc) (advance (wiring m bc) pr lo hi
      (hydro m sh geo inp.dt prev (m.advance geo inp wk prev co x)) (inputs inp c_bc c_0j c_0I) qw cc z)
      (Conc.const v) :=
  C55_uniform_preserved (wiring_wired c) P
    (C78_water_balance_partial c ps cw p he uc ec tab rect hbc hu hd) hm hlo hhi hK hKI hKj hcc hb h0j h0I hz

/-- Width of a circular section rises strictly towards half depth. -/
theorem circ_width_strict {d y0 y1 : ℝ} (h0 : 0 < y0) (h01 : y0 < y1) (h1 : y1 ≤ d / 2) :
    d * Real.sin (Real.arccos (1 - y0 / (d / 2))) < d * Real.sin (Real.arccos (1 - y1 / (d / 2))) := by
  have hd : 0 < d := by linarith
  refine mul_lt_mul_of_pos_left ?_ hd
  rw [Real.sin_arccos, Real.sin_arccos]
  have a0 : 0 < y0 / (d / 2) := by positivity
  have a1 : y0 / (d / 2) < y1 / (d / 2) := div_lt_div_of_pos_right h01 (by positivity)
  have a2 : y1 / (d / 2) ≤ 1 := (div_le_one (by positivity)).2 h1
  apply Real.sqrt_lt_sqrt
  · nlinarith
  · nlinarith

/-- **C78, negation.** In a circular pipe less than half full, *every* rise of the water level breaks the water
balance of the link: the pipe gains more area than top width times rise. -/
theorem C78_circular_never_balances (next : Hyd) {dt : ℝ} (hdt : dt ≠ 0) {i : ℕ} (hdx : m.dx i ≠ 0)
    (hc : sh.code 0 = 1) (pslot y0 y1 : ℝ) (h0 : 0 < y0) (h01 : y0 < y1) (h1 : y1 ≤ sh.g1 i / 2)
    (hp1 : prev.h (sh.Ik i) = y0) (hp2 : prev.h (sh.Ik i + 1) = y0)
    (hn1 : next.h (sh.Ik i) = y1) (hn2 : next.h (sh.Ik i + 1) = y1)
    (hA : geo.A i = Geometry.circularA y0 y0 (sh.g1 i)) (hB : geo.B i = Geometry.circularB y0 y0 (sh.g1 i) pslot) :
    let y := hydro m sh geo dt prev next
    y.dx i * (y.A i - y.A_prev i) / y.dt + y.Q_dn i - y.Q_up i ≠ 0 := by
  intro y h
  have h' := (C78_link_iff (m := m) (sh := sh) (geo := geo) (prev := prev) next hdt hdx).1 h
  have hd : 0 < sh.g1 i := by linarith
  simp only [hydro, areaBy, hc, if_true, hp1, hp2, hn1, hn2, hA] at h'
  rw [Geometry.circularA_eq _ _ hd, Geometry.circularA_eq _ _ hd, Geometry.depth_same (by linarith) (by linarith),
    Geometry.depth_same h0.le (by linarith)] at h'
  have hw : geo.B i = sh.g1 i * Real.sin (Real.arccos (1 - y0 / (sh.g1 i / 2))) := by
    rw [hB]
    simp only [Geometry.circularB, Geometry.wet_same h0.le, if_pos (show y0 < sh.g1 i by linarith),
      Geometry.circTheta_eq hd h0.le (show y0 ≤ sh.g1 i by linarith)]
    ring
  obtain ⟨z, hz, ez⟩ := exists_hasDerivAt_eq_slope (Geometry.circF (sh.g1 i))
    (fun z => 2 * (sh.g1 i / 2) * Real.sin (Real.arccos (1 - z / (sh.g1 i / 2)))) h01
    (fun z hz => (Geometry.circF_hasDerivAt (by linarith [hz.1]) (by linarith [hz.2])).continuousAt.continuousWithinAt)
    (fun z hz => Geometry.circF_hasDerivAt (by linarith [hz.1]) (by linarith [hz.2]))
  have s := circ_width_strict (d := sh.g1 i) h0 hz.1 (by linarith [hz.2, h1])
  rw [eq_div_iff (by linarith : y1 - y0 ≠ 0)] at ez
  rw [hw] at h'
  nlinarith [hz.1, hz.2]

/-- **C78 (what imbalance does).** Without reactions and with water of one concentration `v ≠ 0` everywhere,
the uniform field satisfies the transport equations *only if* the imported states balance water: every
imbalance shows up as spurious dilution or concentration. -/
theorem C78_uniform_only_if {w : Wiring} {p : Params ℝ} {y : Hydro ℝ} {inp : Inputs ℝ} {v : ℝ} (hv : v ≠ 0)
    (hK : ∀ i, p.Kr i = 0) (hKI : ∀ i, p.KrI i = 0) (hKj : ∀ i, p.Krj i = 0)
    (h0j : ∀ i, inp.c_0j i = v) (h0I : ∀ i, inp.c_0I i = v)
    (T : Transport w p y inp (Conc.const v) (Conc.const v)) : WaterBalance w y inp := by
  have cell : ∀ {V V_prev net Qn Q0 : ℝ}, net = Qn * v →
      CellEq y.dt V V_prev 0 v v net (Q0 * v) → (V - V_prev) / y.dt + Qn = Q0 := by
    intro V V_prev net Qn Q0 h1 h2
    unfold CellEq at h2
    rw [h1] at h2
    have : ((V - V_prev) / y.dt + Qn) * v = Q0 * v := by linear_combination h2
    exact mul_right_cancel₀ hv this
  have ctrl : ∀ n Ju Jd Q i, ctrlNet n Ju Jd Q (fun _ => v) i = ctrlQ n Ju Jd Q i * v := by
    intro n Ju Jd Q i
    unfold ctrlNet ctrlQ
    rw [Finset.sum_mul]
    refine Finset.sum_congr rfl fun k _ => ?_
    rw [flux_const]
    split_ifs <;> ring
  refine ⟨fun k hk j hj => ?_, fun k hk j hj => ?_, fun k hk => ?_, fun k hk => ?_, fun i hi hb => ?_⟩
  · have h := (T.links k hk).link j hj
    rw [hK] at h
    simp only [Conc.const, linkFluxDn, linkFluxUp, flux_const, ← sub_mul] at h
    have := cell (Q0 := 0) (net := (_ - _) * v) rfl (by rw [zero_mul]; exact h)
    linear_combination this
  · have h := (T.links k hk).node j hj
    have e1 : nodeOut w p y (Conc.const v) k j = nodeQout w y k j * v := by
      unfold nodeOut nodeQout; split_ifs <;> simp only [Conc.const, dFluxUp, linkFluxUp, flux_const]
    have e2 : nodeIn w p y (Conc.const v) k j = nodeQin w y k j * v := by
      unfold nodeIn nodeQin; split_ifs <;> simp only [Conc.const, uFluxDn, linkFluxDn, flux_const]
    rw [e1, e2, h0I, hKI, ← sub_mul] at h
    have := cell rfl h
    linear_combination this
  · have h := (T.links k hk).up
    simp only [Conc.const, uFluxDn, uFluxUp, flux_const, ← sub_mul] at h
    have := cell (Q0 := 0) (net := (_ - _) * v) rfl (by rw [zero_mul]; exact h)
    linear_combination this
  · have h := (T.links k hk).dn
    simp only [Conc.const, dFluxDn, dFluxUp, flux_const, ← sub_mul] at h
    have := cell (Q0 := 0) (net := (_ - _) * v) rfl (by rw [zero_mul]; exact h)
    linear_combination this
  · have h := T.super i hi hb
    have e : superNet w p y (Conc.const v) i = superQ w y i * v := by
      unfold superNet superQ
      simp only [Conc.const, ctrl, uFluxUp, dFluxDn, flux_const, add_mul, Finset.sum_mul]
      congr 3
      refine Finset.sum_congr rfl fun k _ => ?_
      split_ifs <;> ring
    rw [e, h0j, hKj] at h
    exact cell rfl h

end

/-! ### Non-vacuity

The sloped two-link pipe of `StepProps` with rectangular sections of width 1 and without controls. -/

noncomputable def exM : Model := { Step.exModel false with n_o := 0, n_w := 0, n_p := 0 }
noncomputable def exG : Geo := { Step.exGeo with A := fun i => 3.5 + i }
noncomputable def exSh : Shapes := ⟨fun _ => 3, fun _ => 8, fun i => i⟩

theorem exM_consistent : exM.Consistent := by
  refine ⟨⟨fun _ _ => ?_, fun k k' h h' hk => ?_, fun k k' h h' hk => ?_⟩, ?_, fun k hk => ⟨?_, ?_, ?_, ?_, ?_⟩,
    ?_, ?_, ?_, ?_, ?_, ?_, ?_, ?_⟩ <;> simp [exM, Step.exModel] at * <;> try omega

theorem exM_physical : PhysicalStep exM exG Step.exInp := by
  constructor <;> intros <;> norm_num [exM, Step.exModel, exG, Step.exGeo, Step.exInp]
  positivity

/-- All hypotheses of `C78_water_balance_partial` hold for a pass over still water. -/
example : ∃ co x, Pass exM exG Step.exInp Step.exWork Step.exStill Step.exStill co x ∧
    WaterBalance (wiring exM fun _ => false)
      (hydro exM exSh exG Step.exInp.dt Step.exStill (exM.advance exG Step.exInp Step.exWork Step.exStill co x))
      (inputs Step.exInp none (fun _ => 1) (fun _ => 1)) := by
  have cw : CleanWork exM Step.exWork.mats :=
    ⟨⟨fun _ _ _ _ => rfl⟩, ⟨fun _ _ _ _ => rfl, fun _ _ => rfl⟩, ⟨fun _ _ _ _ => rfl, fun _ _ => rfl⟩,
    ⟨fun _ _ _ _ => rfl, fun _ _ => rfl⟩⟩
  have bed : Step.Bed exM Step.exBed :=
    ⟨fun k hk j hj => (Step.exBedOk false).slope k hk j hj, fun k hk => (Step.exBedOk false).up k hk,
      fun k hk => (Step.exBedOk false).down k hk⟩
  have si : Step.StillInputs exM Step.exInp Step.exBed 5 :=
    ⟨fun _ _ => rfl, fun _ => rfl, fun f hf => by simp [Step.exInp] at hf, (Step.exInputsOk false).heads,
      (Step.exInputsOk false).depths, fun o ho => by simp [exM] at ho, fun o ho => by simp [exM] at ho⟩
  have st0 : Step.Still exM Step.exBed 5 Step.exStill := by
    constructor <;> intros <;> simp [Step.exStill]
  obtain ⟨co, x, p⟩ := Step.C06_step_exists (prev := Step.exStill) (cur := Step.exStill) exM_consistent exM_physical cw
    (fun _ _ => Or.inl rfl)
  have st := Step.C14_still_water_partial exM_consistent exM_physical cw bed si st0 st0 p
  have ends := Step.still_ends (wk := Step.exWork) exM_consistent exM_physical bed si st0 st0 p.coefs (k := 0)
    (by simp [exM, Step.exModel])
  have hx : ∀ j, j < exM.M → exM.z_inv j ≤ x j ∧ x j ≤ exM.z_inv j + exM.max_depth j := by
    intro j hj
    have h := st.H j hj
    simp only [Model.advance, Network.clipHead, exM, Step.exModel] at h ⊢
    rcases le_total (x j) 0 with h1 | h1
    · rw [max_eq_right h1, min_eq_left (by norm_num)] at h; norm_num at h
    · rw [max_eq_left h1] at h
      refine ⟨h1, ?_⟩
      by_contra h2
      rw [min_eq_right (not_le.mp h2).le] at h
      norm_num at h
  refine ⟨co, x, p, C78_water_balance_partial exM_consistent exM_physical cw p rfl ⟨hx, fun k hk => ?_, fun k hk j h1 h2 => ?_⟩
    ⟨fun q hq => by simp [exM] at hq, fun q hq => by simp [exM] at hq, fun q hq => by simp [exM] at hq⟩
    (fun k hk j hj => by simp [exSh, exM, Step.exModel]) (width := fun _ => 1)
    ⟨rfl, fun k hk j hj => ?_, fun k hk j hj => rfl, fun k hk j hj => ?_⟩ (fun _ _ _ => by simp [exM, Step.exModel]) ?_ ?_⟩
  · have hk0 : k = 0 := by simpa [exM, Step.exModel] using hk
    subst hk0
    have e1 := st.H 0 (by simp [exM, Step.exModel])
    have e2 := st.H 1 (by simp [exM, Step.exModel])
    have j1 : exM.Ju 0 = 0 := rfl
    have j2 : exM.Jd 0 = 1 := rfl
    simp only [endDepthU, endDepthD, j1, j2, e1, e2, ends.2.2.1, ends.2.2.2]
    norm_num [exM, Step.exModel, Step.exBed]
  · have hk0 : k = 0 := by simpa [exM, Step.exModel] using hk
    subst hk0
    rw [st.h 0 hk j h2.le]
    have : j = 1 := by simp [exM, Step.exModel] at h2; omega
    subst this
    norm_num [exM, Step.exModel, Step.exBed]
  · have hj2 : j = 0 ∨ j = 1 := by simp [exM, Step.exModel] at hj; omega
    rw [Geometry.rectA, Geometry.depth_eq]
    rcases hj2 with rfl | rfl <;>
      norm_num [exM, Step.exModel, Step.exBed, exG, exSh, Step.exStill]
  · have hj2 : j = 0 ∨ j = 1 := by simp [exM, Step.exModel] at hj; omega
    rcases hj2 with rfl | rfl <;>
      norm_num [exM, Step.exModel, Step.exBed, exSh, Step.exStill]
  · intro k hk; norm_num [exM, Step.exModel, Step.exStill]
  · intro k hk; norm_num [exM, Step.exModel, Step.exStill]

/-- Circular pipe of diameter 2, depth rising from 0.5 to 0.8: water is not balanced. -/
example : ∃ (m : Model) (sh : Shapes) (geo : Geo) (prev next : Hyd),
    let y := hydro m sh geo 60 prev next
    y.dx 0 * (y.A 0 - y.A_prev 0) / y.dt + y.Q_dn 0 - y.Q_up 0 ≠ 0 :=
  ⟨exM, ⟨fun _ => 1, fun _ => 2, fun i => i⟩,
    { exG with A := fun _ => Geometry.circularA 0.5 0.5 2, B := fun _ => Geometry.circularB 0.5 0.5 2 0.001 },
    { Step.exStill with h := fun _ => 0.5 }, { Step.exStill with h := fun _ => 0.8 },
    C78_circular_never_balances _ (by norm_num) (by norm_num [exM, Step.exModel]) rfl 0.001 0.5 0.8 (by norm_num)
      (by norm_num) (by norm_num) rfl rfl rfl rfl rfl rfl⟩

/-- The hypotheses of `C79_end_violated` can hold. -/
example : ∃ (m : Model) (next : Hyd), m.ix.i_1k 0 = 1 ∧ m.z_inv (m.Ju 0) = m.z_uk 0 ∧
    next.H (m.Ju 0) - m.z_uk 0 = 2 ∧ next.h (m.ix.I_1k 0) = 2 :=
  ⟨{ exM with ix := { NK := 1, nk := fun _ => 2, I_1k := fun _ => 0, i_1k := fun _ => 1 }, z_uk := fun _ => 0 },
    { Step.exStill with H := fun _ => 2, h := fun _ => 2 }, rfl, by simp [exM, Step.exModel], by simp, rfl⟩

end Pipedream.Quality
