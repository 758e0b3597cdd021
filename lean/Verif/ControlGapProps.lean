import Verif.StepReportProps
import Verif.ControlProps

/-!
# C27: how far the reported control flows are from the flows that moved water

The head equations move the flow of a linear relation built with the *old* control flow `Q`; afterwards the
discharge is reported by the nonlinear law at the new heads. These theorems give the exact relation between
the two, for all heads and flows.
-/

namespace Pipedream.Control

/-! ### Algebra -/

/-- `q |q| / |Q|` is `q` only if nothing flows or `Q` has the size of `q`. -/
theorem ratio_iff (q Q : ℝ) : safeDivide (q * |q|) |Q| = q ↔ q = 0 ∨ |Q| = |q| := by
  rw [safeDivide_eq]
  by_cases hq : q = 0
  · simp [hq]
  · by_cases hQ : |Q| = 0
    · rw [hQ, div_zero]
      constructor
      · intro h; exact Or.inl h.symm
      · rintro (h | h)
        · exact h.symm
        · exact absurd (abs_eq_zero.mp h.symm) hq
    · rw [div_eq_iff hQ]
      constructor
      · intro h; exact Or.inr (mul_left_cancel₀ hq h).symm
      · rintro (h | h)
        · exact absurd h hq
        · rw [h]

theorem lin_moved {γ e q s : ℝ} (Q : ℝ) (hs : s = 1 ∨ s = -1) (hse : 0 ≤ s * e) (hγ : 0 ≤ γ)
    (hq : q = s * Real.sqrt |γ * e|) : safeDivide γ |Q| * e = safeDivide (q * |q|) |Q| := by
  have h2 : |q| = Real.sqrt |γ * e| := by
    rw [hq, abs_mul, abs_of_nonneg (Real.sqrt_nonneg _)]
    rcases hs with h | h <;> simp [h]
  have : q * |q| = γ * e := by
    rw [h2, hq, mul_assoc, Real.mul_self_sqrt (abs_nonneg _), abs_mul, abs_of_nonneg hγ]
    rcases hs with h | h
    · subst h; rw [one_mul] at hse; rw [abs_of_nonneg hse]; ring
    · subst h; rw [abs_of_nonpos (by linarith : e ≤ 0)]; ring
  rw [this, safeDivide_eq, safeDivide_eq]; ring

/-! ### Orifices -/

/-- The water stands in the same way at the orifice before and after: same higher side, and the same of the
marks — bottom, centre and top of the opening — exceeded. -/
structure SameRegime (o : Orifice) (u Hu Hd Hu' Hd' : ℝ) : Prop where
  fwd : Hd ≤ Hu ↔ Hd' ≤ Hu'
  bwd : Hu ≤ Hd ↔ Hu' ≤ Hd'
  bottom : o.bottom < max Hu Hd ↔ o.bottom < max Hu' Hd'
  top : o.bottom + o.opening u < max Hu Hd ↔ o.bottom + o.opening u < max Hu' Hd'
  mid : o.bottom + o.opening u / 2 < min Hu Hd ↔ o.bottom + o.opening u / 2 < min Hu' Hd'

theorem omega_max (Hu Hd : ℝ) : omega Hu Hd * Hu + (1 - omega Hu Hd) * Hd = max Hu Hd := by
  simp only [omega]; split_ifs with h
  · rw [max_eq_left h]; ring
  · rw [max_eq_right (not_le.mp h).le]; ring

theorem omega_min (Hu Hd : ℝ) : (1 - omega Hu Hd) * Hu + omega Hu Hd * Hd = min Hu Hd := by
  simp only [omega]; split_ifs with h
  · rw [min_eq_right h]; ring
  · rw [min_eq_left (not_le.mp h).le]; ring

theorem SameRegime.coef {o : Orifice} {u Hu Hd Hu' Hd' : ℝ} (s : SameRegime o u Hu Hd Hu' Hd') (old : Lin)
    (γ : ℝ) : orificeCoef old γ Hu Hd u o = orificeCoef old γ Hu' Hd' u o := by
  have ho : o.tau * o.y_max * u = o.opening u := rfl
  have hb : o.z_o + o.z_inv = o.bottom := rfl
  have e1 : omega Hu Hd = omega Hu' Hd' := by simp only [omega, ge_iff_le, s.fwd]
  have e2 : sgn Hu Hd = sgn Hu' Hd' := by simp only [sgn, ge_iff_le, s.fwd]
  simp only [orificeCoef, omega_max, omega_min, ho, hb, gt_iff_lt, ge_iff_le, s.bottom, s.top, s.mid, s.bwd]
  rw [e1, e2]

/-- **C27 (orifice, what is moved).** Through an orifice at which the water stands in the same way before and
after, the head equations move `q |q| / |Q|` (nothing for `Q = 0`), where `Q` is the flow reported by the
previous step and `q` the one given by the orifice law at the new heads. -/
theorem C27_orifice_moved (old : Lin) (g Q Ao Co Hu Hd Hu' Hd' u : ℝ) (o : Orifice) (hg : 0 ≤ g)
    (h0 : 0 ≤ o.opening u) (s : SameRegime o u Hu Hd Hu' Hd') :
    (orificeLin old g Q Ao Co Hu Hd u o).eval Hu' Hd'
      = safeDivide (orificeRaw g Ao Co Hu' Hd' u o * |orificeRaw g Ao Co Hu' Hd' u o|) |Q| := by
  rw [orificeLin, s.coef]
  by_cases hun : Hd' ≥ Hu' ∧ o.unidir = true
  · simp [orificeRaw, orificeCoef_unidir _ _ _ _ _ _ hun, Lin.eval, safeDivide_eq]
  · set q := orificeRaw g Ao Co Hu' Hd' u o with hq
    obtain ⟨e, he, hv⟩ := orificeCoef_regime ⟨0, 0, 0⟩ (2 * g * Co ^ 2 * Ao ^ 2) Hu' Hd' u o h0 hun
    obtain ⟨e', he', hv'⟩ := orificeCoef_regime old (gammaO Q Ao Co g) Hu' Hd' u o h0 hun
    have hee : e' = e := regime_unique h0 he' he
    subst hee
    rw [hv']
    have hraw : q = sgn Hu' Hd' * Real.sqrt |2 * g * Co ^ 2 * Ao ^ 2 * e'| := by
      rw [hq, orificeRaw]; simp only [Lin.eval] at hv; rw [hv]
    refine lin_moved Q (sgn_cases Hu' Hd') ?_ (by positivity) hraw
    cases he with
    | submerged =>
      simp only [sgn]; split_ifs with h <;> linarith
    | free_fwd d hi lo => simp only [sgn, ge_iff_le, d, if_true]; linarith
    | free_bwd d hi lo => simp only [sgn, ge_iff_le, not_le.mpr d, if_false]; linarith
    | weir_fwd d hi lo => simp only [sgn, ge_iff_le, d, if_true]; linarith
    | weir_bwd d hi lo => simp only [sgn, ge_iff_le, not_le.mpr d, if_false]; linarith
    | dry => simp

/-- **C27 (orifice, exactly when).** The flow moved is the flow of the orifice law at the new heads if and only
if nothing flows or the flow has kept its size. -/
theorem C27_orifice_iff (old : Lin) (g Q Ao Co Hu Hd Hu' Hd' u : ℝ) (o : Orifice) (hg : 0 ≤ g)
    (h0 : 0 ≤ o.opening u) (s : SameRegime o u Hu Hd Hu' Hd') :
    (orificeLin old g Q Ao Co Hu Hd u o).eval Hu' Hd' = orificeRaw g Ao Co Hu' Hd' u o ↔
      orificeRaw g Ao Co Hu' Hd' u o = 0 ∨ |Q| = |orificeRaw g Ao Co Hu' Hd' u o| := by
  rw [C27_orifice_moved old g Q Ao Co Hu Hd Hu' Hd' u o hg h0 s]
  exact ratio_iff _ _

/-- **C27 (orifice, rest).** An orifice with no previous flow moves nothing in the step, whatever the heads
before and after. -/
theorem C27_orifice_rest (old : Lin) (g Ao Co Hu Hd Hu' Hd' u : ℝ) (o : Orifice) :
    (orificeLin old g 0 Ao Co Hu Hd u o).eval Hu' Hd' = 0 := by
  rw [orificeLin, C11_orifice_no_stale old ⟨0, 0, 0⟩]
  simp only [gammaO, abs_zero, safeDivide_eq, div_zero, orificeCoef, Lin.eval]
  split_ifs <;> simp

theorem orificeLimit_id {Q Hu Hd Vu Vd dt : ℝ} (h : |Q| ≤ (if Hu > Hd then Vu else Vd) / dt) :
    orificeLimit Q Hu Hd Vu Vd dt = Q := by
  simp only [orificeLimit, min_eq_left h, npSign]
  split_ifs with h1 h2
  · rw [abs_of_pos h1, one_mul]
  · rw [abs_of_neg h2]; ring
  · rw [le_antisymm (not_lt.mp h1) (not_lt.mp h2)]; simp

/-! ### Weirs -/

/-- **C27 (weir, what is moved).** At unchanged heads a weir moves `q |q| / |Q|`. -/
theorem C27_weir_moved (old : Lin) (Q Hu Hd u : ℝ) (w : Weir) :
    (weirLin old Q Hu Hd u w).eval Hu Hd
      = safeDivide (weirFlow Hu Hd u w * |weirFlow Hu Hd u w|) |Q| := by
  rw [weirLin_eval, gammaW]
  have h0 := weirHead_nonneg Hu Hd u w
  have hs := sgn_cases Hu Hd
  have hss : sgn Hu Hd * (sgn Hu Hd * weirHead Hu Hd u w) = weirHead Hu Hd u w := by
    rcases hs with h | h <;> rw [h] <;> ring
  apply lin_moved Q hs (by rw [hss]; exact h0) (by unfold weirConv; positivity)
  have : |weirConv w (weirHead Hu Hd u w) * (sgn Hu Hd * weirHead Hu Hd u w)|
      = weirConv w (weirHead Hu Hd u w) * weirHead Hu Hd u w := by
    have hc : 0 ≤ weirConv w (weirHead Hu Hd u w) := by unfold weirConv; positivity
    rw [abs_mul, abs_mul, abs_of_nonneg hc, abs_of_nonneg h0]
    rcases hs with h | h <;> simp [h]
  rw [this]; rfl

/-- **C27 (weir, exactly when).** -/
theorem C27_weir_iff (old : Lin) (Q Hu Hd u : ℝ) (w : Weir) :
    (weirLin old Q Hu Hd u w).eval Hu Hd = weirFlow Hu Hd u w ↔
      weirFlow Hu Hd u w = 0 ∨ |Q| = |weirFlow Hu Hd u w| := by
  rw [C27_weir_moved]; exact ratio_iff _ _

/-- **C27 (weir, rest).** -/
theorem C27_weir_rest (old : Lin) (Hu Hd Hu' Hd' u : ℝ) (w : Weir) :
    (weirLin old 0 Hu Hd u w).eval Hu' Hd' = 0 := by
  rw [C11_weir_no_stale old ⟨0, 0, 0⟩]
  simp only [weirLin, gammaW, abs_zero, safeDivide_eq, div_zero, Lin.eval]
  split_ifs <;> simp

/-! ### Pumps -/

/-- **C27 (pump, what is moved).** At unchanged heads a pump moves `q ^ c / |Q| ^ (c - 1)`. -/
theorem C27_pump_moved (old : Lin) (Q Hu Hd u : ℝ) {p : Pump} (v : p.Valid) (hu : 0 ≤ u) :
    (pumpLin old Q Hu Hd u p).eval Hu Hd
      = safeDivide (pumpFlow Hu Hd u p ^ p.c) (|Q| ^ (p.c - 1)) := by
  rw [pumpLin_eval _ _ _ _ _ v]
  have hb := v.b_pos.ne'
  by_cases c0 : Hu > p.z_inv + p.z_p
  · simp only [pumpFlow, c0, if_true]
    rw [← Real.rpow_mul (pump_base_nonneg v hu Hu Hd), one_div_mul_cancel v.c_pos.ne', Real.rpow_one, gammaP,
      safeDivide_eq, safeDivide_eq]
    rw [div_mul_eq_div_div]; ring
  · simp [pumpFlow, c0, Real.zero_rpow v.c_pos.ne', safeDivide_eq]

/-- **C27 (pump, exactly when).** The flow moved is the flow of the pump curve if and only if nothing is pumped,
the curve is a straight line, or the flow has kept its size. -/
theorem C27_pump_iff (old : Lin) (Q Hu Hd u : ℝ) {p : Pump} (v : p.Valid) (hu : 0 ≤ u) :
    (pumpLin old Q Hu Hd u p).eval Hu Hd = pumpFlow Hu Hd u p ↔
      pumpFlow Hu Hd u p = 0 ∨ p.c = 1 ∨ |Q| = pumpFlow Hu Hd u p := by
  rw [C27_pump_moved _ _ _ _ _ v hu]
  have q0 : 0 ≤ pumpFlow Hu Hd u p := (C26_pump v hu Hu Hd).1
  generalize pumpFlow Hu Hd u p = q at q0
  have hc := v.c_pos
  rcases q0.eq_or_lt with h | h
  · subst h; simp [Real.zero_rpow hc.ne', safeDivide_eq]
  · by_cases c1 : p.c = 1
    · simp [c1, safeDivide_eq]
    have eq : q ^ p.c = q ^ (p.c - 1) * q := by
      rw [Real.rpow_sub_one h.ne']; field_simp
    have qp : 0 < q ^ (p.c - 1) := Real.rpow_pos_of_pos h _
    rw [safeDivide_eq]
    constructor
    · intro e
      refine Or.inr (Or.inr ?_)
      have d0 : |Q| ^ (p.c - 1) ≠ 0 := by
        intro z; rw [z, div_zero] at e; exact h.ne e
      rw [div_eq_iff d0, eq, mul_comm] at e
      have e' := (mul_left_cancel₀ h.ne' e).symm
      exact (Real.rpow_left_inj (abs_nonneg Q) h.le (sub_ne_zero.mpr c1)).mp e'
    · rintro (z | z | z)
      · exact absurd z h.ne'
      · exact absurd z c1
      · rw [z, eq]; field_simp

/-- **C27 (pump, rest).** A pump whose curve is steeper than a straight line does not start in the head
equations: with no previous flow it moves nothing, whatever the heads. -/
theorem C27_pump_rest (old : Lin) (Hu Hd Hu' Hd' u : ℝ) {p : Pump} (hc : 1 < p.c) :
    (pumpLin old 0 Hu Hd u p).eval Hu' Hd' = 0 := by
  rw [C11_pump_no_stale old ⟨0, 0, 0⟩]
  have : gammaP 0 u p = 0 := by
    simp only [gammaP, abs_zero, safeDivide_eq, Real.zero_rpow (sub_ne_zero.mpr hc.ne'), mul_zero, div_zero]
  simp only [pumpLin, this, Lin.eval]
  split_ifs <;> simp

/-! ### Non-vacuity -/

/-- A submerged orifice whose heads move by a little. -/
example : SameRegime ⟨0, 0, 1, 1, false⟩ 1 3 2 (29/10) (21/10) := by
  constructor <;> norm_num [Orifice.bottom, Orifice.opening]

end Pipedream.Control

namespace Pipedream.Step

open Pipedream Sweep Link Superlink Network Control

variable {m : Model} {geo : Geo} {inp : Inputs} {wk : Work} {cur : Hyd} {co : Coef ℝ}

/-- **C27 (step).** In any step of any network, an orifice at which the water stands in the same way before and
after, and whose discharge is not cut by the stored volume, moves in the head equations the discharge it
reports if and only if it reports none or one of the size reported by the step before. -/
theorem C27_step (g0 : 0 ≤ m.g) (x : ℕ → ℝ) {s : Hyd} (hs : s = m.advance geo inp wk cur co x) (o : ℕ)
    (h0 : 0 ≤ (m.orifice o).opening (inp.u_o o))
    (r : SameRegime (m.orifice o) (inp.u_o o) (cur.H (m.Juo o)) (cur.H (m.Jdo o)) (s.H (m.Juo o)) (s.H (m.Jdo o)))
    (lim : |orificeRaw m.g (geo.Ao o) (m.Co o) (s.H (m.Juo o)) (s.H (m.Jdo o)) (inp.u_o o) (m.orifice o)| ≤
      (if s.H (m.Juo o) > s.H (m.Jdo o) then geo.V (m.Juo o) else geo.V (m.Jdo o)) / inp.dt) :
    (m.net geo inp wk cur co).orifices.Q s.H o = safeDivide (s.Qo o * |s.Qo o|) |cur.Qo o| ∧
    ((m.net geo inp wk cur co).orifices.Q s.H o = s.Qo o ↔ s.Qo o = 0 ∨ |cur.Qo o| = |s.Qo o|) := by
  have e : s.Qo o = orificeRaw m.g (geo.Ao o) (m.Co o) (s.H (m.Juo o)) (s.H (m.Jdo o)) (inp.u_o o) (m.orifice o) := by
    have e1 : s.Qo o = orificeFlow m.g (geo.Ao o) (m.Co o) (s.H (m.Juo o)) (s.H (m.Jdo o)) (inp.u_o o)
        (geo.V (m.Juo o)) (geo.V (m.Jdo o)) inp.dt (m.orifice o) := by rw [hs]; rfl
    rw [e1]
    exact orificeLimit_id lim
  have mv : (m.net geo inp wk cur co).orifices.Q s.H o = safeDivide (s.Qo o * |s.Qo o|) |cur.Qo o| := by
    rw [e]
    exact C27_orifice_moved (wk.lo o) m.g (cur.Qo o) (geo.Ao o) (m.Co o) (cur.H (m.Juo o)) (cur.H (m.Jdo o))
      (s.H (m.Juo o)) (s.H (m.Jdo o)) (inp.u_o o) (m.orifice o) g0 h0 r
  exact ⟨mv, by rw [mv]; exact ratio_iff _ _⟩

end Pipedream.Step
