import Verif.BaseControlModel
import Verif.ControlProps

/-!
# C134: controls behave the same in the pure-Python class

Weirs do. Orifices do unless they are one-way or the heads are equal. Pumps cannot be used at all.
-/

namespace Pipedream.Control

noncomputable section

theorem baseOrificeCoef_eq (old : Lin) (γ Hu Hd u : ℝ) (o : Orifice) :
    baseOrificeCoef old γ Hu Hd u o = orificeCoef old γ Hu Hd u { o with unidir := false } := by
  simp only [baseOrificeCoef, orificeCoef, Bool.false_eq_true, and_false, or_false]

theorem orificeCoef_flag (old : Lin) (γ Hu Hd u : ℝ) (o : Orifice) (h : o.unidir = false ∨ Hd < Hu) :
    orificeCoef old γ Hu Hd u o = orificeCoef old γ Hu Hd u { o with unidir := false } := by
  have : ¬ (Hd ≥ Hu ∧ o.unidir = true) := by
    rintro ⟨h1, h2⟩
    rcases h with h | h
    · simp [h] at h2
    · linarith
  simp only [orificeCoef, this, Bool.false_eq_true, and_false, or_false]

/-- **C134 (orifices).** An orifice that is not one-way, or is passed in its direction, has the same coefficients in
both classes, and the same flow where the heads differ. -/
theorem C134_orifice_partial (old : Lin) (g Q Ao Co Hu Hd u Vu Vd dt : ℝ) (o : Orifice)
    (h : o.unidir = false ∨ Hd < Hu) :
    baseOrificeLin old g Q Ao Co Hu Hd u o = orificeLin old g Q Ao Co Hu Hd u o ∧
      (Hu ≠ Hd → baseOrificeFlow g Ao Co Hu Hd u Vu Vd dt o = orificeFlow g Ao Co Hu Hd u Vu Vd dt o) := by
  refine ⟨?_, fun hne => ?_⟩
  · unfold baseOrificeLin orificeLin gammaO
    rw [baseOrificeCoef_eq, ← orificeCoef_flag _ _ _ _ _ _ h]
  · unfold baseOrificeFlow orificeFlow orificeRaw orificeLimit
    rw [baseOrificeCoef_eq, ← orificeCoef_flag _ _ _ _ _ _ h]
    have : (Hu ≥ Hd) ↔ (Hu > Hd) := ⟨fun h' => lt_of_le_of_ne h' (Ne.symm hne), le_of_lt⟩
    simp only [this]

/-- **C134 (which store limits the flow at equal heads).** At equal heads the pure-Python class limits by the upstream
store and the compiled class by the downstream one: for an orifice that is passed there (C20) the flows differ as soon as
the stores limit them differently. -/
theorem C134_equal_heads (g Ao Co H u Vu Vd dt : ℝ) (o : Orifice) (h : o.unidir = false) :
    baseOrificeFlow g Ao Co H H u Vu Vd dt o
        = npSign (orificeRaw g Ao Co H H u o) * min |orificeRaw g Ao Co H H u o| (Vu / dt) ∧
      orificeFlow g Ao Co H H u Vu Vd dt o
        = npSign (orificeRaw g Ao Co H H u o) * min |orificeRaw g Ao Co H H u o| (Vd / dt) := by
  constructor
  · unfold baseOrificeFlow orificeRaw
    rw [baseOrificeCoef_eq, ← orificeCoef_flag _ _ _ _ _ _ (Or.inl h)]
    simp
  · unfold orificeFlow orificeLimit
    simp

/-- **C134 fails for one-way orifices**: the pure-Python class lets water flow back through every one-way orifice whose
opening the downstream water reaches, while the compiled class does not. -/
theorem C134_oneway_ignored (g Ao Co Hu Hd u Vu Vd dt : ℝ) (o : Orifice) (hun : o.unidir = true)
    (hd : Hu < Hd) (hw : o.bottom < Hd) (h0 : 0 ≤ o.opening u) (hg : 0 < g) (hA : Ao ≠ 0) (hC : Co ≠ 0)
    (hV : 0 < Vd) (hdt : 0 < dt) :
    baseOrificeFlow g Ao Co Hu Hd u Vu Vd dt o < 0 ∧ orificeFlow g Ao Co Hu Hd u Vu Vd dt o = 0 := by
  constructor
  · unfold baseOrificeFlow
    rw [baseOrificeCoef_eq]
    have hγ : 0 < 2 * g * Co ^ 2 * Ao ^ 2 := by positivity
    obtain ⟨e, he, hl⟩ := orificeCoef_regime ⟨0, 0, 0⟩ (2 * g * Co ^ 2 * Ao ^ 2) Hu Hd u { o with unidir := false } h0
      (by simp)
    have he0 : e < 0 := by
      have hbo : ({ o with unidir := false } : Orifice).bottom = o.bottom := rfl
      have hop : ({ o with unidir := false } : Orifice).opening u = o.opening u := rfl
      rw [hbo, hop] at he
      cases he with
      | submerged => linarith
      | free_fwd d => linarith
      | free_bwd d hi lo => linarith
      | weir_fwd d => linarith
      | weir_bwd d hi lo => linarith
      | dry hi => linarith [(max_le_iff.mp hi).2]
    have hl' : (orificeCoef ⟨0, 0, 0⟩ (2 * g * Co ^ 2 * Ao ^ 2) Hu Hd u { o with unidir := false }).alpha * Hu
        + (orificeCoef ⟨0, 0, 0⟩ (2 * g * Co ^ 2 * Ao ^ 2) Hu Hd u { o with unidir := false }).beta * Hd
        + (orificeCoef ⟨0, 0, 0⟩ (2 * g * Co ^ 2 * Ao ^ 2) Hu Hd u { o with unidir := false }).chi
        = 2 * g * Co ^ 2 * Ao ^ 2 * e := hl
    simp only [hl']
    have hs : sgn Hu Hd = -1 := by unfold sgn; rw [if_neg (by linarith)]
    have hsq : 0 < Real.sqrt |2 * g * Co ^ 2 * Ao ^ 2 * e| :=
      Real.sqrt_pos.mpr (abs_pos.mpr (mul_ne_zero hγ.ne' he0.ne))
    rw [hs]
    have hQ : -1 * Real.sqrt |2 * g * Co ^ 2 * Ao ^ 2 * e| < 0 := by linarith
    have hn : npSign (-1 * Real.sqrt |2 * g * Co ^ 2 * Ao ^ 2 * e|) = -1 := by
      unfold npSign; rw [if_neg (by linarith), if_pos hQ]
    rw [hn, if_neg (by linarith)]
    generalize -1 * Real.sqrt |2 * g * Co ^ 2 * Ao ^ 2 * e| = q at hQ ⊢
    have : 0 < min |q| (Vd / dt) := lt_min (abs_pos.mpr hQ.ne) (by positivity)
    linarith
  · unfold orificeFlow orificeRaw
    rw [orificeCoef_unidir _ _ _ _ _ _ ⟨hd.le, hun⟩]
    simp [orificeLimit, npSign]

theorem baseWeirHead_eq (old Hu Hd u : ℝ) (w : Weir) : baseWeirHead old Hu Hd u w = weirHead Hu Hd u w := by
  unfold baseWeirHead weirHead
  simp only
  split_ifs <;> first | rfl | (exfalso; tauto)

/-- **C134 (weirs).** Coefficients and flows of weirs are the same in both classes, whatever the arrays held. -/
theorem C134_weir (old : Lin) (oldH Q Hu Hd u : ℝ) (w : Weir) :
    baseWeirLin old oldH Q Hu Hd u w = weirLin old Q Hu Hd u w ∧
      baseWeirFlow oldH Hu Hd u w = weirFlow Hu Hd u w := by
  constructor
  · unfold baseWeirLin weirLin gammaW weirConv
    rw [baseWeirHead_eq]
  · unfold baseWeirFlow weirFlow weirConv
    rw [baseWeirHead_eq]

/-- **C134 fails for pumps**: a model of the pure-Python class with pumps raises at its first step, because the two
parameters of the curve it uses are never set; without pumps, where they are set, they are not needed. The compiled
class finds what it reads. -/
theorem C134_pumps_missing :
    readAttrs (pumpAttrs true) pumpReads = .error (.attribute .ap_h) ∧
      readAttrs (pumpAttrs false) pumpReads = .ok () ∧
      readAttrs (pumpAttrs true) pumpReadsNumba = .ok () := by
  refine ⟨?_, ?_, ?_⟩ <;> decide

theorem count_eq_iff (n : ℕ) (m : ℕ → Prop) [DecidablePred m] : count n m = n ↔ ∀ i, i < n → m i := by
  unfold count
  constructor
  · intro h i hi
    have h2 : ((List.range n).filter fun i => decide (m i)).length = (List.range n).length := by
      rw [h, List.length_range]
    have := List.length_filter_eq_length_iff.mp h2 i (List.mem_range.mpr hi)
    simpa using this
  · intro h
    have : (List.range n).filter (fun i => decide (m i)) = List.range n :=
      List.filter_eq_self.mpr fun i hi => by simpa using h i (List.mem_range.mp hi)
    rw [this, List.length_range]

/-- **C134 fails for two or more pumps even if the parameters are supplied**: with any heads and any consistent limits
the pure-Python class raises, because the assignment at the masks is given one value per pump. -/
theorem C134_two_pumps (n : ℕ) (hn : 2 ≤ n) (dHmin dHmax dH : ℕ → ℝ) (h : ∀ i, i < n → dHmin i ≤ dHmax i) :
    basePumpHeads n dHmin dHmax dH = .error .value := by
  have hall : ((List.range n).all fun i => decide (dHmin i ≤ dHmax i)) = true := by
    rw [List.all_eq_true]; intro i hi; simpa using h i (List.mem_range.mp hi)
  have h1 : n ≠ 1 := by omega
  unfold basePumpHeads
  rw [if_pos hall]
  unfold maskAssign
  by_cases hc : count n (fun i => dH i > dHmax i) = n
  · rw [if_pos (Or.inr hc)]
    have hsel := (count_eq_iff n _).mp hc
    have hc2 : count n (fun i => (if dH i > dHmax i then dHmax i else dH i) < dHmin i) ≠ n := by
      intro h2
      have := (count_eq_iff n _).mp h2 0 (by omega)
      rw [if_pos (hsel 0 (by omega))] at this
      exact absurd (h 0 (by omega)) (not_le.mpr this)
    simp only
    rw [if_neg (by tauto)]
  · rw [if_neg (by tauto)]

/-- A single pump gets the limited head difference. -/
theorem C134_one_pump (p : EllipsePump) (Hu Hd : ℝ) (h : p.dHmin ≤ p.dHmax) :
    ∃ d, basePumpHeads 1 (fun _ => p.dHmin) (fun _ => p.dHmax) (fun _ => Hd - Hu) = .ok d ∧ d 0 = p.head Hu Hd := by
  have hall : ((List.range 1).all fun _ => decide (p.dHmin ≤ p.dHmax)) = true := by
    rw [List.all_eq_true]; intro i _; simpa using h
  unfold basePumpHeads
  rw [if_pos hall]
  simp only [maskAssign, true_or, if_true]
  exact ⟨_, rfl, rfl⟩

/-- **C134 (a single pump whose parameters are supplied).** Where the head difference is positive and in range, the
linear relation used in the head equations reproduces the flow on the ellipse when evaluated at that flow. -/
theorem C134_ellipse (old : Lin) (Hu Hd u : ℝ) (p : EllipsePump) (hwet : Hu > p.z_inv + p.z_p)
    (h0 : 0 < Hd - Hu) (h1 : p.dHmin < Hd - Hu) (h2 : Hd - Hu < p.dHmax)
    (hah : Hd - Hu < p.a_h) (haq : 0 < p.a_q) (hu : 0 < u) :
    (basePumpLin old (basePumpFlow Hu Hd u p) Hu Hd u p).eval Hu Hd = basePumpFlow Hu Hd u p := by
  have hhead : p.head Hu Hd = Hd - Hu := by
    unfold EllipsePump.head
    simp only
    rw [if_neg (by linarith : ¬ Hd - Hu > p.dHmax), if_neg (by linarith)]
  have hahp : 0 < p.a_h := by linarith
  have hpos : 0 < p.a_q ^ 2 * (1 - (Hd - Hu) ^ 2 / p.a_h ^ 2) := by
    have : (Hd - Hu) ^ 2 / p.a_h ^ 2 < 1 := by
      rw [div_lt_one (by positivity)]
      nlinarith
    have : 0 < 1 - (Hd - Hu) ^ 2 / p.a_h ^ 2 := by linarith
    positivity
  have hQ : basePumpFlow Hu Hd u p = u * Real.sqrt (p.a_q ^ 2 * (1 - (Hd - Hu) ^ 2 / p.a_h ^ 2)) := by
    unfold basePumpFlow
    rw [if_pos hwet, hhead, max_eq_left hpos.le]
  have hs := Real.sqrt_pos.mpr hpos
  have hQpos : 0 < basePumpFlow Hu Hd u p := by rw [hQ]; positivity
  have hQ2 : basePumpFlow Hu Hd u p ^ 2 = u ^ 2 * (p.a_q ^ 2 * (1 - (Hd - Hu) ^ 2 / p.a_h ^ 2)) := by
    rw [hQ, mul_pow, Real.sq_sqrt hpos.le]
  generalize basePumpFlow Hu Hd u p = q at *
  unfold basePumpLin Lin.eval
  simp only [hwet, h1, h2, and_self, not_true, and_false, if_true, if_false, hhead, safeDivide_eq]
  rw [abs_of_pos h0, abs_of_pos hQpos]
  have hd : Hd - Hu ≠ 0 := h0.ne'
  have hq : q ≠ 0 := hQpos.ne'
  field_simp
  field_simp at hQ2
  linear_combination -hQ2

/-- Where the water falls (a negative head difference) it does not: the relation gives more than the flow. -/
theorem C134_ellipse_falling (old : Lin) (Hu Hd u : ℝ) (p : EllipsePump) (hwet : Hu > p.z_inv + p.z_p)
    (h0 : Hd - Hu < 0) (h1 : p.dHmin < Hd - Hu) (h2 : Hd - Hu < p.dHmax)
    (hah : Hu - Hd < p.a_h) (haq : 0 < p.a_q) (hu : 0 < u) :
    basePumpFlow Hu Hd u p < (basePumpLin old (basePumpFlow Hu Hd u p) Hu Hd u p).eval Hu Hd := by
  have hhead : p.head Hu Hd = Hd - Hu := by
    unfold EllipsePump.head
    simp only
    rw [if_neg (by linarith : ¬ Hd - Hu > p.dHmax), if_neg (by linarith)]
  have hahp : 0 < p.a_h := by linarith
  have hpos : 0 < p.a_q ^ 2 * (1 - (Hd - Hu) ^ 2 / p.a_h ^ 2) := by
    have : (Hd - Hu) ^ 2 / p.a_h ^ 2 < 1 := by
      rw [div_lt_one (by positivity)]
      nlinarith
    have : 0 < 1 - (Hd - Hu) ^ 2 / p.a_h ^ 2 := by linarith
    positivity
  have hQ : basePumpFlow Hu Hd u p = u * Real.sqrt (p.a_q ^ 2 * (1 - (Hd - Hu) ^ 2 / p.a_h ^ 2)) := by
    unfold basePumpFlow
    rw [if_pos hwet, hhead, max_eq_left hpos.le]
  have hs := Real.sqrt_pos.mpr hpos
  have hQpos : 0 < basePumpFlow Hu Hd u p := by rw [hQ]; positivity
  have hQ2 : basePumpFlow Hu Hd u p ^ 2 = u ^ 2 * (p.a_q ^ 2 * (1 - (Hd - Hu) ^ 2 / p.a_h ^ 2)) := by
    rw [hQ, mul_pow, Real.sq_sqrt hpos.le]
  generalize basePumpFlow Hu Hd u p = q at *
  unfold basePumpLin Lin.eval
  simp only [hwet, h1, h2, and_self, not_true, and_false, if_true, if_false, hhead, safeDivide_eq]
  rw [abs_of_neg h0, abs_of_pos hQpos]
  have hd : Hd - Hu ≠ 0 := h0.ne
  have hq : q ≠ 0 := hQpos.ne'
  have e : p.a_q ^ 2 * -(Hd - Hu) / (p.a_h ^ 2 * q) * u ^ 2 * Hu + -(p.a_q ^ 2 * -(Hd - Hu) / (p.a_h ^ 2 * q)) * u ^ 2 * Hd
      + p.a_q ^ 2 * -(Hd - Hu) / (p.a_h ^ 2 * q) * p.a_h ^ 2 / -(Hd - Hu) * u ^ 2
      = u ^ 2 * (p.a_q ^ 2 * (1 + (Hd - Hu) ^ 2 / p.a_h ^ 2)) / q := by
    field_simp
    ring
  rw [e, lt_div_iff₀ hQpos, ← pow_two, hQ2]
  have : 0 < (Hd - Hu) ^ 2 / p.a_h ^ 2 := by positivity
  have : p.a_q ^ 2 * (1 - (Hd - Hu) ^ 2 / p.a_h ^ 2) < p.a_q ^ 2 * (1 + (Hd - Hu) ^ 2 / p.a_h ^ 2) := by
    apply mul_lt_mul_of_pos_left _ (by positivity); linarith
  exact mul_lt_mul_of_pos_left this (by positivity)

/-- **C134 (pump at its limits or dry).** Beyond the limits of its head difference a single pump delivers the flow at the
limit, dry none, and the head equations take these constants. -/
theorem C134_ellipse_limits (old : Lin) (Q Hu Hd u : ℝ) (p : EllipsePump) (h : p.dHmin ≤ p.dHmax) :
    (Hu ≤ p.z_inv + p.z_p → basePumpFlow Hu Hd u p = 0 ∧ basePumpLin old Q Hu Hd u p = ⟨0, 0, 0⟩) ∧
    (p.z_inv + p.z_p < Hu → p.dHmax ≤ Hd - Hu →
      basePumpFlow Hu Hd u p = u * Real.sqrt (max (p.a_q ^ 2 * (1 - p.dHmax ^ 2 / p.a_h ^ 2)) 0) ∧
      basePumpLin old Q Hu Hd u p = ⟨0, 0, basePumpFlow Hu Hd u p⟩) ∧
    (p.z_inv + p.z_p < Hu → Hd - Hu ≤ p.dHmin →
      basePumpFlow Hu Hd u p = u * Real.sqrt (max (p.a_q ^ 2 * (1 - p.dHmin ^ 2 / p.a_h ^ 2)) 0) ∧
      basePumpLin old Q Hu Hd u p = ⟨0, 0, basePumpFlow Hu Hd u p⟩) := by
  have hup : p.dHmax ≤ Hd - Hu → p.head Hu Hd = p.dHmax := by
    intro hx
    unfold EllipsePump.head
    simp only
    rcases lt_or_eq_of_le hx with hx | hx
    · rw [if_pos hx, if_neg (not_lt.mpr h)]
    · rw [← hx, if_neg (lt_irrefl _), if_neg (not_lt.mpr h)]
  have hdn : Hd - Hu ≤ p.dHmin → p.head Hu Hd = p.dHmin := by
    intro hx
    unfold EllipsePump.head
    simp only
    rw [if_neg (by linarith : ¬ Hd - Hu > p.dHmax)]
    rcases lt_or_eq_of_le hx with hx | hx
    · rw [if_pos hx]
    · rw [if_neg (by linarith), hx]
  refine ⟨fun hd => ?_, fun hw hx => ?_, fun hw hx => ?_⟩
  · have : ¬ Hu > p.z_inv + p.z_p := not_lt.mpr hd
    constructor
    · simp [basePumpFlow, this]
    · simp only [basePumpLin, this, not_false_iff, if_true]
  · have hc : ¬ (Hd - Hu > p.dHmin ∧ Hd - Hu < p.dHmax) := fun hc => absurd hc.2 (not_lt.mpr hx)
    have hw' : Hu > p.z_inv + p.z_p := hw
    constructor
    · simp only [basePumpFlow, hw', if_true, hup hx]
    · simp only [basePumpLin, basePumpFlow, hw', hc, and_false, not_true, if_false, if_true, and_self, not_false_iff,
        hup hx, mul_comm]
  · have hc : ¬ (Hd - Hu > p.dHmin ∧ Hd - Hu < p.dHmax) := fun hc => absurd hc.1 (not_lt.mpr hx)
    have hw' : Hu > p.z_inv + p.z_p := hw
    constructor
    · simp only [basePumpFlow, hw', if_true, hdn hx]
    · simp only [basePumpLin, basePumpFlow, hw', hc, and_false, not_true, if_false, if_true, and_self, not_false_iff,
        hdn hx, mul_comm]

/-- Non-vacuous: a one-way flap gate under 1 m of backwater. -/
example : baseOrificeFlow 9.81 1 0.6 0 1 1 5 5 10 ⟨0, 0, 1, 0.5, true⟩ < 0 :=
  (C134_oneway_ignored 9.81 1 0.6 0 1 1 5 5 10 ⟨0, 0, 1, 0.5, true⟩ rfl (by norm_num)
    (by norm_num [Orifice.bottom]) (by norm_num [Orifice.opening]) (by norm_num) (by norm_num) (by norm_num)
    (by norm_num) (by norm_num)).1

/-- Non-vacuous: a pump lifting by 3 m on an ellipse of 5 m and 2 m³/s. -/
example : (basePumpLin ⟨0, 0, 0⟩ (basePumpFlow 1 4 1 ⟨0, 0, 4, 1, 5, 2⟩) 1 4 1 ⟨0, 0, 4, 1, 5, 2⟩).eval 1 4
    = basePumpFlow 1 4 1 ⟨0, 0, 4, 1, 5, 2⟩ :=
  C134_ellipse _ _ _ _ _ (by norm_num) (by norm_num) (by norm_num) (by norm_num) (by norm_num)
    (by norm_num) (by norm_num)

end

end Pipedream.Control
