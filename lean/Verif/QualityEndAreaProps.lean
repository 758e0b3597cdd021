import Verif.QualityImportProps
import Verif.SteadyProps

/-!
# C79, C78: flow areas of pipe ends that start above the floor of their superjunction; areas after iterated steps

The depth at the superjunction is measured from its invert `_z_inv_j`, not from the invert of the pipe
(nquality.py 1680–1709, 1721–1749).
-/

namespace Pipedream.Quality

open Pipedream.Step (Model Geo Hyd)

variable {m : Model} {sh : Shapes} {geo : Geo} {dt : ℝ} {prev next : Hyd} {k : ℕ}

/-- Flow area of an open rectangular stretch of width `B` between depths `h1` and `h2`. -/
noncomputable def stretchArea (B h1 h2 : ℝ) : ℝ := B * ((h1 + h2) / 2)

/-- **C79 (offset inlets).** In open rectangular channels the area of the upstream end is too large by half the width
times the offset of the pipe; it is right if and only if the pipe starts at the floor of the superjunction. -/
theorem C79_inlet_iff (hc : sh.code 0 = 3) (hB : geo.B_u k ≠ 0) :
    ((hydro m sh geo dt prev next).A_u k
      = stretchArea (geo.B_u k) (next.H (m.Ju k) - m.z_uk k) (next.h (m.ix.I_1k k))
        + geo.B_u k / 2 * (m.z_uk k - m.z_inv (m.Ju k))) ∧
    ((hydro m sh geo dt prev next).A_u k
      = stretchArea (geo.B_u k) (next.H (m.Ju k) - m.z_uk k) (next.h (m.ix.I_1k k))
      ↔ m.z_uk k = m.z_inv (m.Ju k)) := by
  have e : (hydro m sh geo dt prev next).A_u k
      = stretchArea (geo.B_u k) (next.H (m.Ju k) - m.z_uk k) (next.h (m.ix.I_1k k))
        + geo.B_u k / 2 * (m.z_uk k - m.z_inv (m.Ju k)) := by
    simp only [hydro, areaBy, hc, stretchArea]
    norm_num
    ring
  refine ⟨e, ?_⟩
  rw [e, add_eq_left, mul_eq_zero, sub_eq_zero, or_iff_right (div_ne_zero hB two_ne_zero)]

/-- **C79 (offset outlets).** -/
theorem C79_outlet_iff (hc : sh.code 0 = 3) (hB : geo.B_d k ≠ 0) :
    ((hydro m sh geo dt prev next).A_d k
      = stretchArea (geo.B_d k) (next.H (m.Jd k) - m.z_dk k) (next.h (m.ix.I_1k k + m.ix.nk k))
        + geo.B_d k / 2 * (m.z_dk k - m.z_inv (m.Jd k))) ∧
    ((hydro m sh geo dt prev next).A_d k
      = stretchArea (geo.B_d k) (next.H (m.Jd k) - m.z_dk k) (next.h (m.ix.I_1k k + m.ix.nk k))
      ↔ m.z_dk k = m.z_inv (m.Jd k)) := by
  have e : (hydro m sh geo dt prev next).A_d k
      = stretchArea (geo.B_d k) (next.H (m.Jd k) - m.z_dk k) (next.h (m.ix.I_1k k + m.ix.nk k))
        + geo.B_d k / 2 * (m.z_dk k - m.z_inv (m.Jd k)) := by
    simp only [hydro, areaBy, hc, stretchArea]
    norm_num
    ring
  refine ⟨e, ?_⟩
  rw [e, add_eq_left, mul_eq_zero, sub_eq_zero, or_iff_right (div_ne_zero hB two_ne_zero)]

/-- An open channel half a metre above the floor of its superjunctions: water one metre deep there and half a metre deep
in the channel gives three quarters of a square metre at the end instead of half of one. -/
noncomputable def offsetModel : Model := { Step.exSteadyModel with z_inv := fun _ => 0, z_uk := fun _ => 1 / 2, z_dk := fun _ => 1 / 2 }

noncomputable def offsetGeo : Geo := { Step.exSteadyGeo with B_u := fun _ => 1, B_d := fun _ => 1 }

noncomputable def offsetState : Hyd := { Step.exSteady with H := fun _ => 1, h := fun _ => 1 / 2 }

example : ∃ sh : Shapes, sh.code 0 = 3 ∧ offsetGeo.B_u 0 ≠ 0 ∧ offsetGeo.B_d 0 ≠ 0 ∧
    (hydro offsetModel sh offsetGeo 1 offsetState offsetState).A_u 0 = 3 / 4 ∧
    stretchArea (offsetGeo.B_u 0) (offsetState.H (offsetModel.Ju 0) - offsetModel.z_uk 0)
      (offsetState.h (offsetModel.ix.I_1k 0)) = 1 / 2 := by
  refine ⟨⟨fun _ => 3, fun _ => 1, fun i => i⟩, rfl, one_ne_zero, one_ne_zero, ?_, ?_⟩
  · rw [(C79_inlet_iff rfl one_ne_zero).1]
    norm_num [stretchArea, offsetModel, offsetGeo, offsetState]
  · norm_num [stretchArea, offsetModel, offsetGeo, offsetState]

/-- **C78 (iterated steps).** With more than one pass (`num_iter > 1`) the areas of the last pass belong to the result
`cur` of the pass before it, but the water-quality model takes them for the areas at the beginning of the step
(nquality.py 261). In an open rectangular link the water then balances exactly if that pass returned the mean depth of
the beginning, that is, if the earlier passes did nothing. -/
theorem C78_iterated_iff {cur : Hyd} {i : ℕ} (hdt : dt ≠ 0) (hdx : m.dx i ≠ 0) (hc : sh.code 0 = 3) (hB : geo.B i ≠ 0)
    (hA : geo.A i = stretchArea (geo.B i) (cur.h (sh.Ik i)) (cur.h (sh.Ik i + 1))) :
    let y := hydro m sh geo dt prev next
    y.dx i * (y.A i - y.A_prev i) / y.dt + y.Q_dn i - y.Q_up i = 0 ↔
      cur.h (sh.Ik i) + cur.h (sh.Ik i + 1) = prev.h (sh.Ik i) + prev.h (sh.Ik i + 1) := by
  refine (C78_link_iff (m := m) (sh := sh) (geo := geo) (prev := prev) next hdt hdx).trans ?_
  have e : (hydro m sh geo dt prev next).A i - (hydro m sh geo dt prev next).A_prev i
      - geo.B i * ((next.h (sh.Ik i) - prev.h (sh.Ik i)) / 2 + (next.h (sh.Ik i + 1) - prev.h (sh.Ik i + 1)) / 2)
      = geo.B i / 2 * ((prev.h (sh.Ik i) + prev.h (sh.Ik i + 1)) - (cur.h (sh.Ik i) + cur.h (sh.Ik i + 1))) := by
    simp only [hydro, areaBy, hc, hA, stretchArea]
    norm_num
    ring
  rw [← sub_eq_zero, e, mul_eq_zero, or_iff_right (div_ne_zero hB two_ne_zero), sub_eq_zero]
  exact eq_comm

/-- An open channel in which the first pass already lowered the water from one metre to half a metre. -/
example : ∃ (sh : Shapes) (geo : Geo) (prev cur next : Hyd), sh.code 0 = 3 ∧ geo.B 0 ≠ 0 ∧ offsetModel.dx 0 ≠ 0 ∧
    geo.A 0 = stretchArea (geo.B 0) (cur.h (sh.Ik 0)) (cur.h (sh.Ik 0 + 1)) ∧
    (let y := hydro offsetModel sh geo 1 prev next
     y.dx 0 * (y.A 0 - y.A_prev 0) / y.dt + y.Q_dn 0 - y.Q_up 0 ≠ 0) := by
  have hd : offsetModel.dx 0 ≠ 0 := by norm_num [offsetModel, Step.exSteadyModel, Step.exModel]
  refine ⟨⟨fun _ => 3, fun _ => 1, fun i => i⟩, { offsetGeo with B := fun _ => 1, A := fun _ => 1 / 2 },
    { offsetState with h := fun _ => 1 }, offsetState, offsetState, rfl, one_ne_zero, hd, ?_, ?_⟩
  · norm_num [stretchArea, offsetState]
  · intro y h
    have := (C78_iterated_iff (m := offsetModel) (cur := offsetState) one_ne_zero hd rfl one_ne_zero
      (by norm_num [stretchArea, offsetState])).mp h
    norm_num [offsetState] at this

end Pipedream.Quality
