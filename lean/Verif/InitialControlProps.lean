import Verif.InitialProps
import Verif.ControlGapProps

/-!
# C147 with controls

The constructor's hidden step starts with no flow in any control. Controls without previous flow move nothing
(`C27_orifice_rest`, `C27_weir_rest`), and closed pumps move nothing, so the bound on the heads holds with
controls as well.
-/

namespace Pipedream.Step

open Pipedream Sweep Link Superlink Network Control

variable {m : Model} {geo : Geo} {co : Coef ℝ} {x : ℕ → ℝ} {gv : Given}

theorem pump_closed (old : Lin) (Q Hu Hd Hu' Hd' : ℝ) (p : Pump) : (pumpLin old Q Hu Hd 0 p).eval Hu' Hd' = 0 := by
  rw [C11_pump_no_stale old ⟨0, 0, 0⟩]
  have : gammaP Q 0 p = 0 := by simp [gammaP, safeDivide_eq]
  simp only [pumpLin, this, Lin.eval]
  split_ifs <;> simp

/-- **C147 (controls in the hidden step).** In the hidden step no control moves water, for any heads. -/
theorem C147_controls_idle (wk : Work) (H : ℕ → ℝ) (a : ℕ) :
    (m.net geo hiddenInputs wk (m.start gv) co).orifices.Q H a = 0 ∧
    (m.net geo hiddenInputs wk (m.start gv) co).weirs.Q H a = 0 ∧
    (m.net geo hiddenInputs wk (m.start gv) co).pumps.Q H a = 0 :=
  ⟨C27_orifice_rest (wk.lo a) m.g (geo.Ao a) (m.Co a) _ _ (H (m.Juo a)) (H (m.Jdo a)) _ (m.orifice a),
    C27_weir_rest (wk.lw a) _ _ (H (m.Juw a)) (H (m.Jdw a)) _ (m.weir a),
    pump_closed (wk.lp a) _ _ _ (H (m.Jup a)) (H (m.Jdp a)) (m.pump a)⟩

/-- **C147 (given states which fit, with controls).** If the given depths fit the heads at the ends of every
superlink, the heads of the new object differ from the given ones, in volume and all superjunctions together, by
at most what the flows bounded by `B` carry in a millionth of a second. -/
theorem C147_heads (c : m.Consistent) (st : StartTables m) (ps : PhysicalStep m geo hiddenInputs)
    (he : m.end_method = .b) (p : Pass m geo hiddenInputs freshWork (m.start gv) (m.start gv) co x)
    (hmd : 0 ≤ m.min_depth)
    (hlim : ∀ j, j < m.M → (m.start gv).H j ≤ m.z_inv j + m.max_depth j)
    (hu : ∀ k, k < m.ix.NK → 0 < geo.A_u k) (hd : ∀ k, k < m.ix.NK → 0 < geo.A_d k)
    (ft : ∀ k, k < m.ix.NK → FitsEnds m geo (m.start gv) k)
    (wide : ∀ k, k < m.ix.NK → ∀ j, 1 ≤ j → j < m.ix.nk k → 0 < surfaceArea m geo k j)
    {B : ℕ → ℝ} (bd : ∀ k, k < m.ix.NK → Bounded m geo hiddenInputs (m.start gv) k 0 0 (B k)) :
    ∑ j ∈ free m, surfaceAt m geo (m.start gv) j
        * |(m.advance geo hiddenInputs freshWork (m.start gv) co x).H j - (m.start gv).H j|
      ≤ 1 / 1000000 * (2 * ∑ k ∈ Finset.range m.ix.NK, B k) := by
  have h := C148_heads c st ps (freshClean m) he p (fun _ _ _ => rfl)
    (fun j hj => ⟨le_trans (by linarith) (le_max_right _ _), hlim j hj⟩) hu hd ft (fun _ _ _ _ => rfl) wide bd
  have z : ∀ j, |hiddenInputs.Q_in j
      + (m.net geo hiddenInputs freshWork (m.start gv) co).orifices.inflow (m.start gv).H j
      + (m.net geo hiddenInputs freshWork (m.start gv) co).weirs.inflow (m.start gv).H j
      + (m.net geo hiddenInputs freshWork (m.start gv) co).pumps.inflow (m.start gv).H j| = 0 := by
    intro j
    have e1 : hiddenInputs.Q_in j = 0 := rfl
    have i := C147_controls_idle (m := m) (geo := geo) (gv := gv) (co := co) freshWork (m.start gv).H
    simp [e1, Ctrls.inflow, (i _).1, (i _).2.1, (i _).2.2]
  rw [Finset.sum_congr rfl (fun j _ => z j), Finset.sum_const_zero, add_zero] at h
  exact h

/-- **C147 (reported control flows).** The new object reports no flow of pumps with a well-posed curve, nor of
orifices of no area (closed ones), but weirs report what the overflow formula gives above the top of the closed
gate, although they moved nothing. -/
theorem C147_reported (x : ℕ → ℝ) (a : ℕ) :
    ((m.pump a).Valid → (m.advance geo hiddenInputs freshWork (m.start gv) co x).Qp a = 0) ∧
    (geo.Ao a = 0 → (m.advance geo hiddenInputs freshWork (m.start gv) co x).Qo a = 0) ∧
    (0 ≤ (m.weir a).Cwr * (m.weir a).L → 0 ≤ (m.weir a).Cwt * (m.weir a).s →
      ∀ s, s = m.advance geo hiddenInputs freshWork (m.start gv) co x →
      s.H (m.Jdw a) ≤ (m.weir a).z_w + (m.weir a).z_inv + (m.weir a).y_max →
      (m.weir a).z_w + (m.weir a).z_inv + (m.weir a).y_max < s.H (m.Juw a) →
      s.Qw a = (m.weir a).Cwr * (m.weir a).L * (s.H (m.Juw a) - ((m.weir a).z_w + (m.weir a).z_inv + (m.weir a).y_max)) ^ (3/2 : ℝ)
        + (m.weir a).Cwt * (m.weir a).s * (s.H (m.Juw a) - ((m.weir a).z_w + (m.weir a).z_inv + (m.weir a).y_max)) ^ (5/2 : ℝ)) := by
  refine ⟨fun v => ?_, fun h => ?_, fun hL hS s hs hd hu => ?_⟩
  · show pumpFlow _ _ 0 (m.pump a) = 0
    simp [pumpFlow, Real.zero_rpow (inv_ne_zero v.c_pos.ne')]
  · show orificeFlow _ (geo.Ao a) _ _ _ 0 _ _ _ (m.orifice a) = 0
    rw [h]
    exact (C22_orifice_closed ⟨0, 0, 0⟩ m.g 0 (m.Co a) _ _ 0 (geo.V (m.Juo a)) (geo.V (m.Jdo a)) _ (m.orifice a)).1
  · have hc : (m.weir a).crest (hiddenInputs.u_w a) = (m.weir a).z_w + (m.weir a).z_inv + (m.weir a).y_max := by
      have : hiddenInputs.u_w a = 0 := rfl
      rw [Weir.crest, this]; ring
    have := (C25_step x hs a).2.2.2.2 hL hS (by rw [hc]; exact hd) (by rw [hc]; exact hu)
    rwa [hc] at this

end Pipedream.Step
