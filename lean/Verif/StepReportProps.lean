import Verif.StepProps

/-! Control flows reported by a step belong to the heads reported by the same step. -/

namespace Pipedream.Step

open Pipedream Sweep Link Superlink Network Control

variable {m : Model} {geo : Geo} {inp : Inputs} {wk : Work} {cur : Hyd} {co : Coef ℝ}

/-- **C20 (step).** After a step, for whatever heads the solver returned: reported orifice flow runs from
the higher to the lower reported head, a one-way orifice reports no backflow, an orifice with both reported
heads at or below its bottom reports nothing, and no orifice reports more than the water stored at the
higher reported head could supply during the step. -/
theorem C20_step (hV : ∀ i, 0 ≤ geo.V i) (dt_pos : 0 < inp.dt) (x : ℕ → ℝ) {s : Hyd}
    (hs : s = m.advance geo inp wk cur co x) (o : ℕ) :
    (s.H (m.Jdo o) ≤ s.H (m.Juo o) → 0 ≤ s.Qo o) ∧
    (s.H (m.Juo o) < s.H (m.Jdo o) → s.Qo o ≤ 0) ∧
    ((m.orifice o).unidir = true → 0 ≤ s.Qo o ∧ (s.H (m.Juo o) ≤ s.H (m.Jdo o) → s.Qo o = 0)) ∧
    (0 ≤ (m.orifice o).opening (inp.u_o o) → s.H (m.Juo o) ≤ (m.orifice o).bottom →
      s.H (m.Jdo o) ≤ (m.orifice o).bottom → s.Qo o = 0) ∧
    |s.Qo o| * inp.dt ≤ (if s.H (m.Juo o) > s.H (m.Jdo o) then geo.V (m.Juo o) else geo.V (m.Jdo o)) := by
  subst hs
  have d := C20_direction m.g (geo.Ao o) (m.Co o)
    ((m.advance geo inp wk cur co x).H (m.Juo o)) ((m.advance geo inp wk cur co x).H (m.Jdo o)) (inp.u_o o)
    (geo.V (m.Juo o)) (geo.V (m.Jdo o)) inp.dt (m.orifice o) (hV _) (hV _) dt_pos
  refine ⟨d.1, d.2, fun hun => ?_, fun h0 hu hd => ?_, ?_⟩
  · have w := C21_oneway ⟨0, 0, 0⟩ m.g 0 (geo.Ao o) (m.Co o)
      ((m.advance geo inp wk cur co x).H (m.Juo o)) ((m.advance geo inp wk cur co x).H (m.Jdo o)) (inp.u_o o)
      (geo.V (m.Juo o)) (geo.V (m.Jdo o)) inp.dt (m.orifice o) hun (hV _) (hV _) dt_pos
    exact ⟨w.1, fun h => (w.2 h).1⟩
  · exact (C22_orifice_dry ⟨0, 0, 0⟩ m.g 0 (geo.Ao o) (m.Co o) _ _ (inp.u_o o)
      (geo.V (m.Juo o)) (geo.V (m.Jdo o)) inp.dt (m.orifice o) h0 hu hd).1
  · exact C23_single m.g (geo.Ao o) (m.Co o) _ _ (inp.u_o o) (geo.V (m.Juo o)) (geo.V (m.Jdo o)) inp.dt
      (m.orifice o) (hV _) (hV _) dt_pos

/-- **C25 (step).** After a step, reported weir flow runs from the higher to the lower reported head,
vanishes at equal heads or when both are at or below the crest, and a free overflow of height `d` above
the crest carries `Cwr L d^{3/2} + Cwt s d^{5/2}` at the reported head. -/
theorem C25_step (x : ℕ → ℝ) {s : Hyd} (hs : s = m.advance geo inp wk cur co x) (w : ℕ) :
    (s.H (m.Jdw w) ≤ s.H (m.Juw w) → 0 ≤ s.Qw w) ∧
    (s.H (m.Juw w) < s.H (m.Jdw w) → s.Qw w ≤ 0) ∧
    (s.H (m.Juw w) = s.H (m.Jdw w) → s.Qw w = 0) ∧
    (s.H (m.Juw w) ≤ (m.weir w).crest (inp.u_w w) → s.H (m.Jdw w) ≤ (m.weir w).crest (inp.u_w w) →
      s.Qw w = 0) ∧
    (0 ≤ (m.weir w).Cwr * (m.weir w).L → 0 ≤ (m.weir w).Cwt * (m.weir w).s →
      s.H (m.Jdw w) ≤ (m.weir w).crest (inp.u_w w) → (m.weir w).crest (inp.u_w w) < s.H (m.Juw w) →
      s.Qw w = (m.weir w).Cwr * (m.weir w).L * (s.H (m.Juw w) - (m.weir w).crest (inp.u_w w)) ^ (3/2 : ℝ)
        + (m.weir w).Cwt * (m.weir w).s * (s.H (m.Juw w) - (m.weir w).crest (inp.u_w w)) ^ (5/2 : ℝ)) := by
  subst hs
  have d := C25_direction ((m.advance geo inp wk cur co x).H (m.Juw w))
    ((m.advance geo inp wk cur co x).H (m.Jdw w)) (inp.u_w w) (m.weir w)
  exact ⟨d.1, d.2.1, d.2.2, fun hu hd => (C22_weir_dry ⟨0, 0, 0⟩ 0 _ _ (inp.u_w w) (m.weir w) hu hd).1,
    fun hL hS hd hu => C25_free_overflow _ _ (inp.u_w w) (m.weir w) hL hS hd hu⟩

/-- **C26 (step).** After a step, a pump reports non-negative flow, lies on its curve at the lift between
the reported heads limited to `[dHmin, dHmax]` when the reported upstream head is above its inlet, and
reports nothing otherwise. -/
theorem C26_step {p : ℕ} (v : (m.pump p).Valid) (hu : 0 ≤ inp.u_p p) (x : ℕ → ℝ) {s : Hyd}
    (hs : s = m.advance geo inp wk cur co x) :
    0 ≤ s.Qp p ∧
    ((m.pump p).z_inv + (m.pump p).z_p < s.H (m.Jup p) → (m.pump p).b * s.Qp p ^ (m.pump p).c
      = inp.u_p p * ((m.pump p).a
          - max (m.pump p).dHmin (min (s.H (m.Jdp p) - s.H (m.Jup p)) (m.pump p).dHmax))) ∧
    (s.H (m.Jup p) ≤ (m.pump p).z_inv + (m.pump p).z_p → s.Qp p = 0) := by
  subst hs
  have c := C26_pump v hu ((m.advance geo inp wk cur co x).H (m.Jup p))
    ((m.advance geo inp wk cur co x).H (m.Jdp p))
  exact ⟨c.1, c.2.1, fun h => (C22_pump_dry ⟨0, 0, 0⟩ 0 _ _ (inp.u_p p) (m.pump p) h).1⟩

/-- The hypotheses are met by the example model: non-negative volumes, a positive step. -/
example (fx : Bool) : (∀ i, (0:ℝ) ≤ exGeo.V i) ∧ (0:ℝ) < exInp.dt :=
  ⟨fun _ => by simp [exGeo], (exPhysical fx).dt_pos⟩

/-- A pump with a valid curve. -/
example : (⟨0, 0, 10, -10, 10, 1, 2⟩ : Pump).Valid :=
  ⟨by norm_num, by norm_num, by norm_num, by norm_num⟩

end Pipedream.Step
