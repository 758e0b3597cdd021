import Verif.ControlModel
import Mathlib.Tactic.Linarith
import Mathlib.Tactic.Ring
import Mathlib.Tactic.FieldSimp
import Mathlib.Tactic.NormNum
import Mathlib.Tactic.Positivity
import Mathlib.Tactic.LinearCombination

/-!
# Properties of orifices, weirs and pumps: C20–C27
-/

namespace Pipedream.Control

/-! ### Specification of the flow regimes

An independent description of the head that drives an orifice or weir: signed, from the higher to the
lower side. -/

/-- Signed driving head of an orifice; `open_` is the opening height, `bot` the bottom elevation. -/
inductive OrificeRegime (bot opening Hu Hd : ℝ) : ℝ → Prop
  | submerged (hi : bot + opening < max Hu Hd) (lo : bot + opening / 2 < min Hu Hd) :
      OrificeRegime bot opening Hu Hd (Hu - Hd)
  | free_fwd (d : Hd ≤ Hu) (hi : bot + opening < Hu) (lo : Hd ≤ bot + opening / 2) :
      OrificeRegime bot opening Hu Hd (Hu - (bot + opening / 2))
  | free_bwd (d : Hu < Hd) (hi : bot + opening < Hd) (lo : Hu ≤ bot + opening / 2) :
      OrificeRegime bot opening Hu Hd (-(Hd - (bot + opening / 2)))
  | weir_fwd (d : Hd ≤ Hu) (hi : Hu ≤ bot + opening) (lo : bot < Hu) :
      OrificeRegime bot opening Hu Hd (Hu - bot)
  | weir_bwd (d : Hu < Hd) (hi : Hd ≤ bot + opening) (lo : bot < Hd) :
      OrificeRegime bot opening Hu Hd (-(Hd - bot))
  | dry (hi : max Hu Hd ≤ bot) : OrificeRegime bot opening Hu Hd 0

/-- Bottom elevation of the opening. -/
def Orifice.bottom (o : Orifice) : ℝ := o.z_o + o.z_inv

/-- Height of the opening (zero for bottom orifices, `tau = 0`). -/
def Orifice.opening (o : Orifice) (u : ℝ) : ℝ := o.tau * o.y_max * u

theorem orificeCoef_regime (old : Lin) (γ Hu Hd u : ℝ) (o : Orifice) (h0 : 0 ≤ o.opening u)
    (hun : ¬ (Hd ≥ Hu ∧ o.unidir = true)) :
    ∃ e, OrificeRegime o.bottom (o.opening u) Hu Hd e ∧
      (orificeCoef old γ Hu Hd u o).eval Hu Hd = γ * e := by
  have ho : o.tau * o.y_max * u = o.opening u := rfl
  have hb : o.z_o + o.z_inv = o.bottom := rfl
  have hb2 : -o.z_inv - o.z_o = -o.bottom := by simp only [Orifice.bottom]; ring
  simp only [orificeCoef, Lin.eval, hun, or_false, ho, hb, hb2]
  by_cases hd : Hd ≤ Hu
  · have hm : max Hu Hd = Hu := max_eq_left hd
    have hn : min Hu Hd = Hd := min_eq_right hd
    simp only [omega, sgn, ge_iff_le, hd, if_true, one_mul, sub_self, zero_mul, add_zero, zero_add]
    by_cases c0 : o.bottom + o.opening u < Hu
    · have c2 : o.bottom < Hu := by linarith
      by_cases c1 : o.bottom + o.opening u / 2 < Hd
      · exact ⟨Hu - Hd, .submerged (by rw [hm]; exact c0) (by rw [hn]; exact c1), by simp [c0, c1, c2]; ring⟩
      · exact ⟨_, .free_fwd hd c0 (not_lt.mp c1), by simp [c0, c1, c2]; ring⟩
    · by_cases c2 : o.bottom < Hu
      · exact ⟨_, .weir_fwd hd (not_lt.mp c0) c2, by simp [c0, c2]; ring⟩
      · exact ⟨_, .dry (by rw [hm]; exact not_lt.mp c2), by simp [c0, c2]⟩
  · have hd' := not_le.mp hd
    have hm : max Hu Hd = Hd := max_eq_right hd'.le
    have hn : min Hu Hd = Hu := min_eq_left hd'.le
    simp only [omega, sgn, ge_iff_le, hd, if_false, one_mul, sub_zero, zero_mul, add_zero, zero_add]
    by_cases c0 : o.bottom + o.opening u < Hd
    · have c2 : o.bottom < Hd := by linarith
      by_cases c1 : o.bottom + o.opening u / 2 < Hu
      · exact ⟨Hu - Hd, .submerged (by rw [hm]; exact c0) (by rw [hn]; exact c1), by simp [c0, c1, c2]; ring⟩
      · exact ⟨_, .free_bwd hd' c0 (not_lt.mp c1), by simp [c0, c1, c2]; ring⟩
    · by_cases c2 : o.bottom < Hd
      · exact ⟨_, .weir_bwd hd' (not_lt.mp c0) c2, by simp [c0, c2]; ring⟩
      · exact ⟨_, .dry (by rw [hm]; exact not_lt.mp c2), by simp [c0, c2]⟩

theorem regime_unique {bot opn Hu Hd e e' : ℝ} (h0 : 0 ≤ opn) (h : OrificeRegime bot opn Hu Hd e)
    (h' : OrificeRegime bot opn Hu Hd e') : e = e' := by
  cases h <;> cases h' <;> first | rfl | (exfalso; (try simp only [lt_max_iff, lt_min_iff, max_le_iff] at *); grind)

theorem orificeCoef_unidir (old : Lin) (γ Hu Hd u : ℝ) (o : Orifice)
    (hun : Hd ≥ Hu ∧ o.unidir = true) : orificeCoef old γ Hu Hd u o = ⟨0, 0, 0⟩ := by
  simp [orificeCoef, hun]

/-- **C11 (orifices).** The coefficients do not depend on the old contents of the arrays. -/
theorem C11_orifice_no_stale (old old' : Lin) (γ Hu Hd u : ℝ) (o : Orifice) :
    orificeCoef old γ Hu Hd u o = orificeCoef old' γ Hu Hd u o := by
  simp only [orificeCoef]
  split_ifs <;> first | rfl | (exfalso; tauto)

/-- **C11 (weirs).** -/
theorem C11_weir_no_stale (old old' : Lin) (Q Hu Hd u : ℝ) (w : Weir) :
    weirLin old Q Hu Hd u w = weirLin old' Q Hu Hd u w := by
  simp only [weirLin]
  split_ifs <;> first | rfl | (exfalso; tauto)

/-- **C11 (pumps).** -/
theorem C11_pump_no_stale (old old' : Lin) (Q Hu Hd u : ℝ) (p : Pump) :
    pumpLin old Q Hu Hd u p = pumpLin old' Q Hu Hd u p := by
  simp only [pumpLin]
  split_ifs <;> first | rfl | (exfalso; tauto)

/-! ### Signs used by the network equations -/

/-- What the network assembly needs of a control: `α ≥ 0 ≥ β`. -/
structure Lin.Signed (l : Lin) : Prop where
  a : 0 ≤ l.alpha
  b : l.beta ≤ 0

theorem orificeLin_signed (old : Lin) {g Q Ao Co Hu Hd u : ℝ} (hg : 0 ≤ g) (o : Orifice) :
    (orificeLin old g Q Ao Co Hu Hd u o).Signed := by
  have hγ : 0 ≤ gammaO Q Ao Co g := by
    simp only [gammaO, safeDivide_eq]; positivity
  rw [orificeLin, C11_orifice_no_stale old ⟨0, 0, 0⟩]
  generalize gammaO Q Ao Co g = γ at hγ
  simp only [orificeCoef, omega, sgn]
  constructor <;> (split_ifs <;> simp <;> linarith)

theorem weirLin_signed (old : Lin) (Q Hu Hd u : ℝ) (w : Weir) : (weirLin old Q Hu Hd u w).Signed := by
  have hγ : 0 ≤ gammaW Q (weirHead Hu Hd u w) w := by
    simp only [gammaW, weirConv, safeDivide_eq]; positivity
  rw [C11_weir_no_stale old ⟨0, 0, 0⟩]
  simp only [weirLin]
  generalize gammaW Q (weirHead Hu Hd u w) w = γ at hγ
  simp only [omega, sgn]
  constructor <;> (split_ifs <;> simp <;> linarith)

theorem pumpLin_signed (old : Lin) {Q Hu Hd u : ℝ} (p : Pump) (hu : 0 ≤ u) (hb : 0 ≤ p.b) :
    (pumpLin old Q Hu Hd u p).Signed := by
  have hγ : 0 ≤ gammaP Q u p := by
    simp only [gammaP, safeDivide_eq]; positivity
  rw [C11_pump_no_stale old ⟨0, 0, 0⟩]
  simp only [pumpLin]
  generalize gammaP Q u p = γ at hγ
  constructor <;> (split_ifs <;> simp <;> linarith)

/-! ### C20, C21 -/

theorem npSign_nonneg {x : ℝ} (h : 0 ≤ x) : 0 ≤ npSign x := by
  simp only [npSign]; split_ifs <;> linarith

theorem npSign_nonpos {x : ℝ} (h : x ≤ 0) : npSign x ≤ 0 := by
  simp only [npSign]; split_ifs <;> linarith

theorem orificeLimit_nonneg {Q Hu Hd Vu Vd dt : ℝ} (hQ : 0 ≤ Q) (hVu : 0 ≤ Vu) (hVd : 0 ≤ Vd)
    (hdt : 0 < dt) : 0 ≤ orificeLimit Q Hu Hd Vu Vd dt := by
  apply mul_nonneg (npSign_nonneg hQ) (le_min (abs_nonneg _) _)
  split_ifs <;> positivity

theorem orificeLimit_nonpos {Q Hu Hd Vu Vd dt : ℝ} (hQ : Q ≤ 0) (hVu : 0 ≤ Vu) (hVd : 0 ≤ Vd)
    (hdt : 0 < dt) : orificeLimit Q Hu Hd Vu Vd dt ≤ 0 := by
  apply mul_nonpos_of_nonpos_of_nonneg (npSign_nonpos hQ) (le_min (abs_nonneg _) _)
  split_ifs <;> positivity

/-- **C20 (direction).** Reported orifice flow goes from the higher to the lower head. -/
theorem C20_direction (g Ao Co Hu Hd u Vu Vd dt : ℝ) (o : Orifice) (hVu : 0 ≤ Vu) (hVd : 0 ≤ Vd)
    (hdt : 0 < dt) : (Hd ≤ Hu → 0 ≤ orificeFlow g Ao Co Hu Hd u Vu Vd dt o) ∧
      (Hu < Hd → orificeFlow g Ao Co Hu Hd u Vu Vd dt o ≤ 0) := by
  constructor
  · intro h
    apply orificeLimit_nonneg _ hVu hVd hdt
    simp only [orificeRaw, sgn, ge_iff_le, h, if_true, one_mul]
    exact Real.sqrt_nonneg _
  · intro h
    apply orificeLimit_nonpos _ hVu hVd hdt
    simp only [orificeRaw, sgn, ge_iff_le, not_le.mpr h, if_false, neg_mul, one_mul, Left.neg_nonpos_iff]
    exact Real.sqrt_nonneg _

/-- **C20 (partial: equal heads).** With equal heads the reported flow is zero when the common head is
above the top of the opening or not above its bottom. Missing: heads between bottom and top, where it is
not zero (`C20_equal_heads_flow`). -/
theorem C20_equal_heads_partial (g Ao Co H u Vu Vd dt : ℝ) (o : Orifice) (h0 : 0 ≤ o.opening u)
    (h : o.bottom + o.opening u < H ∨ H ≤ o.bottom) :
    orificeFlow g Ao Co H H u Vu Vd dt o = 0 := by
  have key : orificeRaw g Ao Co H H u o = 0 := by
    simp only [orificeRaw]
    by_cases hun : H ≥ H ∧ o.unidir = true
    · rw [orificeCoef_unidir _ _ _ _ _ _ hun]; simp
    · obtain ⟨e, he, hv⟩ := orificeCoef_regime ⟨0, 0, 0⟩ (2 * g * Co ^ 2 * Ao ^ 2) H H u o h0 hun
      simp only [Lin.eval] at hv
      rw [hv]
      have : e = 0 := by
        cases he with
        | submerged => ring
        | free_fwd d hi lo => linarith
        | free_bwd d => exact absurd d (lt_irrefl _)
        | weir_fwd d hi lo => rcases h with h | h <;> linarith
        | weir_bwd d => exact absurd d (lt_irrefl _)
        | dry => rfl
      simp [this]
  simp [orificeFlow, orificeLimit, key, npSign]

/-- **C20 is false at equal heads in the weir regime.** Side orifice of height 1 at elevation 0, fully
open, both heads 1/2: the reported discharge is positive. -/
theorem C20_equal_heads_flow :
    0 < orificeFlow (981/100) 1 1 (1/2) (1/2) 1 10 10 1 ⟨0, 0, 1, 1, false⟩ := by
  have h : orificeCoef ⟨0, 0, 0⟩ (2 * (981/100) * 1 ^ 2 * 1 ^ 2) (1/2) (1/2) 1 ⟨0, 0, 1, 1, false⟩
      = ⟨2 * (981/100) , 0, 0⟩ := by
    simp only [orificeCoef, omega, sgn]
    norm_num
  simp only [orificeFlow, orificeLimit, orificeRaw, h]
  have hp : 0 < Real.sqrt |2 * (981/100 : ℝ) * (1/2) + 0 * (1/2) + 0| := by
    apply Real.sqrt_pos.mpr; norm_num
  simp only [sgn, ge_iff_le, le_refl, if_true, one_mul, npSign, gt_iff_lt, hp, lt_irrefl, if_false]
  apply lt_min
  · exact abs_pos.mpr hp.ne'
  · norm_num

/-- **C21.** A one-way orifice never reports negative flow, and its row contribution vanishes when the
downstream head is at least the upstream head. -/
theorem C21_oneway (old : Lin) (g Q Ao Co Hu Hd u Vu Vd dt : ℝ) (o : Orifice) (hun : o.unidir = true)
    (hVu : 0 ≤ Vu) (hVd : 0 ≤ Vd) (hdt : 0 < dt) :
    0 ≤ orificeFlow g Ao Co Hu Hd u Vu Vd dt o ∧
    (Hu ≤ Hd → orificeFlow g Ao Co Hu Hd u Vu Vd dt o = 0 ∧
      ∀ Hu' Hd', (orificeLin old g Q Ao Co Hu Hd u o).eval Hu' Hd' = 0) := by
  have hz : Hu ≤ Hd → orificeFlow g Ao Co Hu Hd u Vu Vd dt o = 0 := by
    intro h
    simp [orificeFlow, orificeLimit, orificeRaw, orificeCoef_unidir _ _ _ _ _ _ ⟨h, hun⟩, npSign]
  constructor
  · rcases le_total Hd Hu with h | h
    · exact (C20_direction g Ao Co Hu Hd u Vu Vd dt o hVu hVd hdt).1 h
    · rw [hz h]
  · intro h
    refine ⟨hz h, fun Hu' Hd' => ?_⟩
    simp [orificeLin, orificeCoef_unidir _ _ _ _ _ _ ⟨h, hun⟩, Lin.eval]

/-! ### C22 -/

/-- **C22 (orifice, dry).** -/
theorem C22_orifice_dry (old : Lin) (g Q Ao Co Hu Hd u Vu Vd dt : ℝ) (o : Orifice) (h0 : 0 ≤ o.opening u)
    (hu : Hu ≤ o.bottom) (hd : Hd ≤ o.bottom) : orificeFlow g Ao Co Hu Hd u Vu Vd dt o = 0 ∧
      (orificeLin old g Q Ao Co Hu Hd u o) = ⟨0, 0, 0⟩ := by
  have key : ∀ old γ, orificeCoef old γ Hu Hd u o = ⟨0, 0, 0⟩ := by
    intro old γ
    have ho : o.tau * o.y_max * u = o.opening u := rfl
    have hb : o.z_o + o.z_inv = o.bottom := rfl
    simp only [orificeCoef, ho, hb, omega]
    by_cases hd' : Hu ≥ Hd
    · have c0 : ¬ (Hu > o.bottom + o.opening u) := by linarith
      have c2 : ¬ (Hu > o.bottom) := not_lt.mpr hu
      simp only [hd', if_true, one_mul, sub_self, zero_mul, add_zero, c0, c2]; simp
    · have c0 : ¬ (Hd > o.bottom + o.opening u) := by linarith
      have c2 : ¬ (Hd > o.bottom) := not_lt.mpr hd
      simp only [hd', if_false, one_mul, sub_zero, zero_mul, zero_add, c0, c2]; simp
  exact ⟨by simp [orificeFlow, orificeLimit, orificeRaw, key, npSign], key _ _⟩

/-- **C22 (orifice, zero area).** An orifice whose computed flow area is zero passes nothing; which
shapes compute area zero for opening zero is settled in `GeometryProps`. -/
theorem C22_orifice_closed (old : Lin) (g Q Co Hu Hd u Vu Vd dt : ℝ) (o : Orifice) :
    orificeFlow g 0 Co Hu Hd u Vu Vd dt o = 0 ∧
      ∀ Hu' Hd', (orificeLin old g Q 0 Co Hu Hd u o).eval Hu' Hd' = 0 := by
  have key : ∀ Hu' Hd', (orificeCoef ⟨0, 0, 0⟩ 0 Hu Hd u o).eval Hu' Hd' = 0 := by
    intro Hu' Hd'
    simp only [orificeCoef, Lin.eval]; split_ifs <;> simp
  constructor
  · have := key Hu Hd
    simp only [Lin.eval] at this
    simp [orificeFlow, orificeLimit, orificeRaw, npSign, this]
  · intro Hu' Hd'
    rw [orificeLin, C11_orifice_no_stale old ⟨0, 0, 0⟩]
    simpa [gammaO, safeDivide_eq] using key Hu' Hd'

theorem weirHead_eq (Hu Hd u : ℝ) (w : Weir) :
    weirHead Hu Hd u w = if w.crest u < min Hu Hd then |Hu - Hd|
      else max (max Hu Hd - w.crest u) 0 := by
  have hc : w.z_w + w.z_inv + (1 - u) * w.y_max = w.crest u := rfl
  have hc2 : -w.z_inv - w.z_w - (1 - u) * w.y_max = -w.crest u := by simp only [Weir.crest]; ring
  simp only [weirHead, hc, hc2, omega]
  by_cases hd : Hd ≤ Hu
  · simp only [ge_iff_le, hd, if_true, one_mul, sub_self, zero_mul, add_zero, zero_add,
      max_eq_left hd, min_eq_right hd]
    by_cases c1 : w.crest u < Hd
    · have c0 : w.crest u < Hu := by linarith
      simp [c0, c1]
    · by_cases c0 : w.crest u < Hu
      · simp only [gt_iff_lt, c0, c1, and_false, if_false, if_true]
        rw [abs_of_nonneg (by linarith), max_eq_left (by linarith)]; ring
      · simp only [gt_iff_lt, c0, c1, and_false, if_false]
        rw [max_eq_right (by linarith)]; simp
  · have hd' := (not_le.mp hd)
    simp only [ge_iff_le, hd, if_false, one_mul, sub_zero, zero_mul, add_zero, zero_add,
      max_eq_right hd'.le, min_eq_left hd'.le]
    by_cases c1 : w.crest u < Hu
    · have c0 : w.crest u < Hd := by linarith
      simp [c0, c1]
    · by_cases c0 : w.crest u < Hd
      · simp only [gt_iff_lt, c0, c1, and_false, if_false, if_true]
        rw [abs_of_nonneg (by linarith), max_eq_left (by linarith)]; ring
      · simp only [gt_iff_lt, c0, c1, and_false, if_false]
        rw [max_eq_right (by linarith)]; simp

/-- **C22 (weir).** -/
theorem C22_weir_dry (old : Lin) (Q Hu Hd u : ℝ) (w : Weir) (hu : Hu ≤ w.crest u) (hd : Hd ≤ w.crest u) :
    weirFlow Hu Hd u w = 0 ∧ weirLin old Q Hu Hd u w = ⟨0, 0, 0⟩ := by
  constructor
  · have : weirHead Hu Hd u w = 0 := by
      rw [weirHead_eq, if_neg (by simp [hu]), max_eq_right (by simp [hu, hd])]
    simp [weirFlow, this]
  · have hc : w.z_w + w.z_inv + (1 - u) * w.y_max = w.crest u := rfl
    simp only [weirLin, hc, omega]
    by_cases h : Hu ≥ Hd
    · simp [h, not_lt.mpr hu]
    · simp [h, not_lt.mpr hd]

/-- **C22 (pump).** -/
theorem C22_pump_dry (old : Lin) (Q Hu Hd u : ℝ) (p : Pump) (h : Hu ≤ p.z_inv + p.z_p) :
    pumpFlow Hu Hd u p = 0 ∧ pumpLin old Q Hu Hd u p = ⟨0, 0, 0⟩ := by
  simp [pumpFlow, pumpLin, not_lt.mpr h]

/-! ### C23 -/

/-- **C23 (one orifice).** Discharge times `dt` is at most the volume of the superjunction it drains. -/
theorem C23_single (g Ao Co Hu Hd u Vu Vd dt : ℝ) (o : Orifice) (hVu : 0 ≤ Vu) (hVd : 0 ≤ Vd)
    (hdt : 0 < dt) : |orificeFlow g Ao Co Hu Hd u Vu Vd dt o| * dt ≤ if Hu > Hd then Vu else Vd := by
  have h1 : |orificeFlow g Ao Co Hu Hd u Vu Vd dt o| ≤ (if Hu > Hd then Vu else Vd) / dt := by
    simp only [orificeFlow, orificeLimit]
    have hm : 0 ≤ min |orificeRaw g Ao Co Hu Hd u o| ((if Hu > Hd then Vu else Vd) / dt) := by
      apply le_min (abs_nonneg _); split_ifs <;> positivity
    rw [abs_mul, abs_of_nonneg hm]
    have hs : |npSign (orificeRaw g Ao Co Hu Hd u o)| ≤ 1 := by
      simp only [npSign]; split_ifs <;> simp
    calc _ ≤ 1 * min |orificeRaw g Ao Co Hu Hd u o| ((if Hu > Hd then Vu else Vd) / dt) :=
          mul_le_mul_of_nonneg_right hs hm
      _ ≤ _ := by rw [one_mul]; exact min_le_right _ _
  calc _ ≤ (if Hu > Hd then Vu else Vd) / dt * dt := mul_le_mul_of_nonneg_right h1 hdt.le
    _ = _ := div_mul_cancel₀ _ hdt.ne'

/-- **C23 is false for orifices jointly.** Two identical orifices drain the same superjunction (volume 1):
together they report twice the stored volume in one step. -/
theorem C23_joint_fails :
    let q := orificeFlow (981/100) 1 1 2 0 1 1 1 1 ⟨0, 0, 0, 1, false⟩
    (q + q) * 1 > (1:ℝ) := by
  intro q
  have h : orificeCoef ⟨0, 0, 0⟩ (2 * (981/100) * 1 ^ 2 * 1 ^ 2) 2 0 1 ⟨0, 0, 0, 1, false⟩
      = ⟨2 * (981/100) , 0, 0⟩ := by
    simp only [orificeCoef, omega, sgn]
    norm_num
  have hq : q = 1 := by
    simp only [q, orificeFlow, orificeLimit, orificeRaw, h]
    have hp : 1 ≤ Real.sqrt |2 * (981/100 : ℝ) * 2 + 0 * 0 + 0| := by
      rw [Real.one_le_sqrt]; norm_num
    have hp0 : 0 < Real.sqrt |2 * (981/100 : ℝ) * 2 + 0 * 0 + 0| := by linarith
    have hs : sgn 2 0 = 1 := by norm_num [sgn]
    rw [hs, one_mul]
    simp only [npSign, gt_iff_lt, hp0, if_true, one_mul]
    rw [abs_of_pos hp0, min_eq_right]
    · norm_num
    · rw [if_pos (by norm_num), div_one]; exact hp
  rw [hq]; norm_num

/-! ### C24 -/

/-- If `|L| = Q²` in magnitude and `Q` has the sign of the driving head, dividing by `|Q|` returns `Q`. -/
theorem lin_at_fixpoint {γ e Q s : ℝ} (hs : s = 1 ∨ s = -1) (hse : 0 ≤ s * e) (hγ : 0 ≤ γ)
    (hQ : Q = s * Real.sqrt |γ * e|) : safeDivide γ |Q| * e = Q := by
  rw [safeDivide_eq]
  have hQ2 : |Q| = Real.sqrt |γ * e| := by
    rw [hQ, abs_mul, abs_of_nonneg (Real.sqrt_nonneg _)]
    rcases hs with h | h <;> simp [h]
  by_cases h0 : |Q| = 0
  · rw [h0, div_zero, zero_mul]; exact (abs_eq_zero.mp h0).symm
  · rw [div_mul_eq_mul_div, div_eq_iff h0, hQ2, hQ, mul_assoc, Real.mul_self_sqrt (abs_nonneg _),
      abs_mul, abs_of_nonneg hγ]
    rcases hs with h | h
    · subst h; rw [one_mul] at hse; rw [abs_of_nonneg hse]; ring
    · subst h
      have : e ≤ 0 := by linarith
      rw [abs_of_nonpos this]; ring

theorem sgn_cases (Hu Hd : ℝ) : sgn Hu Hd = 1 ∨ sgn Hu Hd = -1 := by
  simp only [sgn]; split_ifs <;> simp

/-- **C24 (orifice).** If the flow used for linearisation is the flow of the nonlinear law at these heads,
the linear relation returns it. -/
theorem C24_orifice (old : Lin) (g Ao Co Hu Hd u : ℝ) (o : Orifice) (hg : 0 ≤ g) (h0 : 0 ≤ o.opening u) :
    (orificeLin old g (orificeRaw g Ao Co Hu Hd u o) Ao Co Hu Hd u o).eval Hu Hd
      = orificeRaw g Ao Co Hu Hd u o := by
  by_cases hun : Hd ≥ Hu ∧ o.unidir = true
  · simp [orificeLin, orificeRaw, orificeCoef_unidir _ _ _ _ _ _ hun, Lin.eval]
  · set Q := orificeRaw g Ao Co Hu Hd u o with hQ
    obtain ⟨e, he, hv⟩ := orificeCoef_regime ⟨0, 0, 0⟩ (2 * g * Co ^ 2 * Ao ^ 2) Hu Hd u o h0 hun
    obtain ⟨e', he', hv'⟩ := orificeCoef_regime old (gammaO Q Ao Co g) Hu Hd u o h0 hun
    have hee : e' = e := regime_unique h0 he' he
    subst hee
    rw [orificeLin, hv']
    have hraw : Q = sgn Hu Hd * Real.sqrt |2 * g * Co ^ 2 * Ao ^ 2 * e'| := by
      rw [hQ, orificeRaw]; simp only [Lin.eval] at hv; rw [hv]
    refine lin_at_fixpoint (sgn_cases Hu Hd) ?_ (by positivity) hraw
    cases he with
    | submerged =>
      simp only [sgn]; split_ifs with h <;> linarith
    | free_fwd d hi lo => simp only [sgn, ge_iff_le, d, if_true]; linarith
    | free_bwd d hi lo => simp only [sgn, ge_iff_le, not_le.mpr d, if_false]; linarith
    | weir_fwd d hi lo => simp only [sgn, ge_iff_le, d, if_true]; linarith
    | weir_bwd d hi lo => simp only [sgn, ge_iff_le, not_le.mpr d, if_false]; linarith
    | dry => simp

theorem weirLin_eval (old : Lin) (Q Hu Hd u : ℝ) (w : Weir) :
    (weirLin old Q Hu Hd u w).eval Hu Hd
      = gammaW Q (weirHead Hu Hd u w) w * (sgn Hu Hd * weirHead Hu Hd u w) := by
  rw [weirHead_eq]
  have hc : w.z_w + w.z_inv + (1 - u) * w.y_max = w.crest u := rfl
  have hc2 : -w.z_inv - w.z_w - (1 - u) * w.y_max = -w.crest u := by simp only [Weir.crest]; ring
  simp only [weirLin, weirHead_eq, Lin.eval, hc, hc2, omega, sgn]
  by_cases hd : Hd ≤ Hu
  · simp only [ge_iff_le, hd, if_true, one_mul, sub_self, zero_mul, add_zero, zero_add,
      max_eq_left hd, min_eq_right hd]
    by_cases c1 : w.crest u < Hd
    · have c0 : w.crest u < Hu := by linarith
      simp only [gt_iff_lt, c0, c1, and_self, not_true, and_false, if_true, if_false]
      rw [abs_of_nonneg (sub_nonneg.mpr hd)]; ring
    · by_cases c0 : w.crest u < Hu
      · simp only [gt_iff_lt, c0, c1, and_false, not_false_iff, and_true, if_false, if_true, not_true]
        rw [max_eq_left (by linarith)]; ring
      · simp only [gt_iff_lt, c0, c1, and_false, not_false_iff, if_false, if_true]
        rw [max_eq_right (by linarith)]; ring
  · have hd' := (not_le.mp hd)
    simp only [ge_iff_le, hd, if_false, one_mul, sub_zero, zero_mul, add_zero, zero_add,
      max_eq_right hd'.le, min_eq_left hd'.le]
    by_cases c1 : w.crest u < Hu
    · have c0 : w.crest u < Hd := by linarith
      simp only [gt_iff_lt, c0, c1, and_self, not_true, and_false, if_true, if_false]
      rw [abs_of_nonpos (sub_nonpos.mpr hd'.le)]; ring
    · by_cases c0 : w.crest u < Hd
      · simp only [gt_iff_lt, c0, c1, and_false, not_false_iff, and_true, if_false, if_true, not_true]
        rw [max_eq_left (by linarith)]; ring
      · simp only [gt_iff_lt, c0, c1, and_false, not_false_iff, if_false, if_true]
        rw [max_eq_right (by linarith)]; ring

theorem weirHead_nonneg (Hu Hd u : ℝ) (w : Weir) : 0 ≤ weirHead Hu Hd u w := abs_nonneg _

/-- **C24 (weir).** -/
theorem C24_weir (old : Lin) (Hu Hd u : ℝ) (w : Weir) :
    (weirLin old (weirFlow Hu Hd u w) Hu Hd u w).eval Hu Hd = weirFlow Hu Hd u w := by
  rw [weirLin_eval, gammaW]
  have h0 := weirHead_nonneg Hu Hd u w
  have hs := sgn_cases Hu Hd
  have hss : sgn Hu Hd * (sgn Hu Hd * weirHead Hu Hd u w) = weirHead Hu Hd u w := by
    rcases hs with h | h <;> rw [h] <;> ring
  apply lin_at_fixpoint hs (by rw [hss]; exact h0) (by unfold weirConv; positivity)
  have : |weirConv w (weirHead Hu Hd u w) * (sgn Hu Hd * weirHead Hu Hd u w)|
      = weirConv w (weirHead Hu Hd u w) * weirHead Hu Hd u w := by
    have hc : 0 ≤ weirConv w (weirHead Hu Hd u w) := by unfold weirConv; positivity
    rw [abs_mul, abs_mul, abs_of_nonneg hc, abs_of_nonneg h0]
    rcases hs with h | h <;> simp [h]
  rw [this]; rfl

/-- A well-posed pump curve. -/
structure Pump.Valid (p : Pump) : Prop where
  b_pos : 0 < p.b
  c_pos : 0 < p.c
  range : p.dHmin ≤ p.dHmax
  shutoff : p.dHmax ≤ p.a

theorem pumpHead_eq {p : Pump} (v : p.Valid) (Hu Hd : ℝ) :
    pumpHead Hu Hd p = max p.dHmin (min (Hd - Hu) p.dHmax) := by
  have := v.range
  simp only [pumpHead, max_def, min_def]
  split_ifs <;> linarith

theorem pumpHead_le {p : Pump} (v : p.Valid) (Hu Hd : ℝ) : pumpHead Hu Hd p ≤ p.a := by
  rw [pumpHead_eq v]
  exact le_trans (max_le v.range (min_le_right _ _)) v.shutoff

theorem pump_base_nonneg {p : Pump} (v : p.Valid) {u : ℝ} (hu : 0 ≤ u) (Hu Hd : ℝ) :
    0 ≤ u / p.b * (p.a - pumpHead Hu Hd p) :=
  mul_nonneg (div_nonneg hu v.b_pos.le) (sub_nonneg.mpr (pumpHead_le v Hu Hd))

theorem pumpLin_eval (old : Lin) (Q Hu Hd u : ℝ) {p : Pump} (v : p.Valid) :
    (pumpLin old Q Hu Hd u p).eval Hu Hd =
      if Hu > p.z_inv + p.z_p then gammaP Q u p * (p.a - pumpHead Hu Hd p) else 0 := by
  by_cases c0 : Hu > p.z_inv + p.z_p
  · by_cases c1 : Hd - Hu > p.dHmin ∧ Hd - Hu < p.dHmax
    · have : pumpHead Hu Hd p = Hd - Hu := by
        rw [pumpHead_eq v, min_eq_left c1.2.le, max_eq_right c1.1.le]
      simp only [pumpLin, c0, c1, and_self, Lin.eval, not_true, if_false, if_true, this, and_false]
      ring
    · simp only [pumpLin, c0, c1, Lin.eval, not_true, if_false, if_true, and_false, not_false_iff, and_true]
      ring
  · simp only [pumpLin, c0, Lin.eval, not_false_iff, if_true, if_false]; ring

/-- **C24 (pump).** -/
theorem C24_pump (old : Lin) (Hu Hd u : ℝ) {p : Pump} (v : p.Valid) (hu : 0 ≤ u) :
    (pumpLin old (pumpFlow Hu Hd u p) Hu Hd u p).eval Hu Hd = pumpFlow Hu Hd u p := by
  rw [pumpLin_eval _ _ _ _ _ v]
  by_cases c0 : Hu > p.z_inv + p.z_p
  · simp only [pumpFlow, c0, if_true]
    set X := u / p.b * (p.a - pumpHead Hu Hd p) with hX
    have hX0 : 0 ≤ X := pump_base_nonneg v hu Hu Hd
    have hQ0 : 0 ≤ X ^ (1 / p.c) := Real.rpow_nonneg hX0 _
    rw [gammaP, abs_of_nonneg hQ0, safeDivide_eq]
    have hb := v.b_pos.ne'
    have hc := v.c_pos.ne'
    by_cases hz : X = 0
    · have hua : u * (p.a - pumpHead Hu Hd p) = 0 := by
        have := hX.symm.trans hz
        field_simp at this
        simpa using this
      rw [div_mul_eq_mul_div, hua, zero_div, hz, Real.zero_rpow (by positivity)]
    · have hXp : 0 < X := lt_of_le_of_ne hX0 (Ne.symm hz)
      have hQp : 0 < X ^ (1 / p.c) := Real.rpow_pos_of_pos hXp _
      have e1 : (X ^ (1 / p.c)) ^ (p.c - 1) = X / X ^ (1 / p.c) := by
        rw [Real.rpow_sub hQp, ← Real.rpow_mul hXp.le, one_div_mul_cancel hc, Real.rpow_one, Real.rpow_one]
      rw [e1]
      have e2 : u * (p.a - pumpHead Hu Hd p) = p.b * X := by rw [hX]; field_simp
      rw [div_mul_eq_mul_div, e2]
      field_simp
  · simp [pumpFlow, c0]

/-! ### C25 -/

/-- **C25 (direction and equal heads).** -/
theorem C25_direction (Hu Hd u : ℝ) (w : Weir) :
    (Hd ≤ Hu → 0 ≤ weirFlow Hu Hd u w) ∧ (Hu < Hd → weirFlow Hu Hd u w ≤ 0) ∧
    (Hu = Hd → weirFlow Hu Hd u w = 0) := by
  refine ⟨fun h => ?_, fun h => ?_, fun h => ?_⟩
  · simp only [weirFlow, sgn, ge_iff_le, h, if_true, one_mul]; exact Real.sqrt_nonneg _
  · simp only [weirFlow, sgn, ge_iff_le, not_le.mpr h, if_false, neg_mul, one_mul, Left.neg_nonpos_iff]
    exact Real.sqrt_nonneg _
  · subst h
    by_cases c : w.crest u < Hu
    · have : weirHead Hu Hu u w = 0 := by rw [weirHead_eq]; simp [c]
      simp [weirFlow, this]
    · exact (C22_weir_dry ⟨0, 0, 0⟩ 0 Hu Hu u w (not_lt.mp c) (not_lt.mp c)).1

/-- **C25 (magnitude).** Free overflow of height `H` above the crest discharges
`Cwr L H^{3/2} + Cwt s H^{5/2}`. -/
theorem C25_free_overflow (Hu Hd u : ℝ) (w : Weir) (hL : 0 ≤ w.Cwr * w.L) (hs : 0 ≤ w.Cwt * w.s)
    (hd : Hd ≤ w.crest u) (hu : w.crest u < Hu) :
    weirFlow Hu Hd u w = w.Cwr * w.L * (Hu - w.crest u) ^ (3/2 : ℝ)
      + w.Cwt * w.s * (Hu - w.crest u) ^ (5/2 : ℝ) := by
  have hdu : Hd ≤ Hu := by linarith
  have hH : weirHead Hu Hd u w = Hu - w.crest u := by
    rw [weirHead_eq, if_neg (by simp [hd]), max_eq_left hdu, max_eq_left (by linarith)]
  have hp : 0 < Hu - w.crest u := by linarith
  simp only [weirFlow, hH, sgn, ge_iff_le, hdu, if_true, one_mul, weirConv]
  generalize Hu - w.crest u = H at hp
  rw [Real.sqrt_mul (sq_nonneg _), Real.sqrt_sq (by positivity)]
  have e3 : H ^ (3/2 : ℝ) = H * Real.sqrt H := by
    rw [Real.sqrt_eq_rpow, show (3/2 : ℝ) = 1 + 1/2 by norm_num, Real.rpow_add hp, Real.rpow_one]
  have e5 : H ^ (5/2 : ℝ) = H ^ 2 * Real.sqrt H := by
    rw [Real.sqrt_eq_rpow, show (5/2 : ℝ) = 2 + 1/2 by norm_num, Real.rpow_add hp, Real.rpow_two]
  rw [e3, e5]; ring

/-- **C25 (monotone).** With the lower head at or below the crest, raising the upper head never lowers the
discharge. -/
theorem C25_monotone (Hu Hu' Hd u : ℝ) (w : Weir) (hL : 0 ≤ w.Cwr * w.L) (hs : 0 ≤ w.Cwt * w.s)
    (hd : Hd ≤ w.crest u) (h1 : Hd ≤ Hu) (h2 : Hu ≤ Hu') :
    weirFlow Hu Hd u w ≤ weirFlow Hu' Hd u w := by
  by_cases c : w.crest u < Hu
  · rw [C25_free_overflow Hu Hd u w hL hs hd c, C25_free_overflow Hu' Hd u w hL hs hd (by linarith)]
    have hp : 0 ≤ Hu - w.crest u := by linarith
    have a := Real.rpow_le_rpow hp (by linarith : Hu - w.crest u ≤ Hu' - w.crest u) (by norm_num : (0:ℝ) ≤ 3/2)
    have b := Real.rpow_le_rpow hp (by linarith : Hu - w.crest u ≤ Hu' - w.crest u) (by norm_num : (0:ℝ) ≤ 5/2)
    exact add_le_add (mul_le_mul_of_nonneg_left a hL) (mul_le_mul_of_nonneg_left b hs)
  · rw [(C22_weir_dry ⟨0, 0, 0⟩ 0 Hu Hd u w (not_lt.mp c) hd).1]
    exact (C25_direction Hu' Hd u w).1 (by linarith)

/-! ### C26 -/

/-- **C26.** Pump discharge is non-negative, lies on the pump curve at the head difference limited to
`[dHmin, dHmax]`, and does not increase when the lift increases (either head moving). -/
theorem C26_pump {p : Pump} (v : p.Valid) {u : ℝ} (hu : 0 ≤ u) (Hu Hd : ℝ) :
    0 ≤ pumpFlow Hu Hd u p ∧
    (p.z_inv + p.z_p < Hu →
      p.b * pumpFlow Hu Hd u p ^ p.c = u * (p.a - max p.dHmin (min (Hd - Hu) p.dHmax))) ∧
    (∀ Hd', Hd ≤ Hd' → pumpFlow Hu Hd' u p ≤ pumpFlow Hu Hd u p) ∧
    (∀ Hu', Hu ≤ Hu' → pumpFlow Hu Hd u p ≤ pumpFlow Hu' Hd u p) := by
  have base := pump_base_nonneg v hu
  have mono : ∀ d d' : ℝ, d ≤ d' →
      (u / p.b * (p.a - max p.dHmin (min d' p.dHmax))) ≤ (u / p.b * (p.a - max p.dHmin (min d p.dHmax))) := by
    intro d d' h
    apply mul_le_mul_of_nonneg_left _ (div_nonneg hu v.b_pos.le)
    have := max_le_max (le_refl p.dHmin) (min_le_min_right p.dHmax h)
    linarith
  have nn : ∀ Hu Hd, 0 ≤ pumpFlow Hu Hd u p := by
    intro Hu Hd
    simp only [pumpFlow]; split_ifs
    · exact Real.rpow_nonneg (base Hu Hd) _
    · exact le_rfl
  refine ⟨nn _ _, fun h => ?_, fun Hd' h => ?_, fun Hu' h => ?_⟩
  · simp only [pumpFlow, gt_iff_lt, h, if_true]
    rw [← Real.rpow_mul (base Hu Hd), one_div_mul_cancel v.c_pos.ne', Real.rpow_one, pumpHead_eq v]
    have := v.b_pos.ne'
    field_simp
  · simp only [pumpFlow]
    split_ifs
    · apply Real.rpow_le_rpow (base Hu Hd') _ (by have := v.c_pos; positivity)
      rw [pumpHead_eq v, pumpHead_eq v]
      exact mono _ _ (by linarith)
    · exact le_rfl
  · by_cases c : Hu > p.z_inv + p.z_p
    · have c' : Hu' > p.z_inv + p.z_p := lt_of_lt_of_le c h
      simp only [pumpFlow, c, c', if_true]
      apply Real.rpow_le_rpow (base Hu Hd) _ (by have := v.c_pos; positivity)
      rw [pumpHead_eq v, pumpHead_eq v]
      exact mono _ _ (by linarith)
    · have : pumpFlow Hu Hd u p = 0 := by simp [pumpFlow, c]
      rw [this]; exact nn _ _

/-! ### C27 -/

/-- **C27 is false (orifice).** Starting at rest (`Q = 0`) the linear relation put into the head equations
is identically zero, although the discharge reported for the same heads is positive. -/
theorem C27_orifice_at_rest (old : Lin) (Hu' Hd' : ℝ) :
    (orificeLin old (981/100) 0 1 1 2 0 1 ⟨0, 0, 0, 1, false⟩).eval Hu' Hd' = 0 ∧
    0 < orificeFlow (981/100) 1 1 2 0 1 10 10 1 ⟨0, 0, 0, 1, false⟩ := by
  constructor
  · rw [orificeLin, C11_orifice_no_stale old ⟨0, 0, 0⟩]
    simp only [gammaO, abs_zero, safeDivide_eq, div_zero, orificeCoef, Lin.eval]
    split_ifs <;> simp
  · have h : orificeCoef ⟨0, 0, 0⟩ (2 * (981/100) * 1 ^ 2 * 1 ^ 2) 2 0 1 ⟨0, 0, 0, 1, false⟩
        = ⟨2 * (981/100) , 0, 0⟩ := by
      simp only [orificeCoef, omega, sgn]
      norm_num
    simp only [orificeFlow, orificeLimit, orificeRaw, h]
    have hp0 : 0 < Real.sqrt |2 * (981/100 : ℝ) * 2 + 0 * 0 + 0| := by
      apply Real.sqrt_pos.mpr; norm_num
    have hs : sgn 2 0 = 1 := by norm_num [sgn]
    rw [hs, one_mul]
    simp only [npSign, gt_iff_lt, hp0, if_true, one_mul]
    exact lt_min (abs_pos.mpr hp0.ne') (by norm_num)

/-- **C27 is false (weir).** -/
theorem C27_weir_at_rest (old : Lin) (Hu' Hd' : ℝ) :
    (weirLin old 0 2 0 1 ⟨1, 0, 1, 1, 0, 1, 0⟩).eval Hu' Hd' = 0 ∧
    0 < weirFlow 2 0 1 ⟨1, 0, 1, 1, 0, 1, 0⟩ := by
  constructor
  · rw [C11_weir_no_stale old ⟨0, 0, 0⟩]
    simp only [weirLin, gammaW, abs_zero, safeDivide_eq, div_zero, Lin.eval]
    split_ifs <;> simp
  · rw [C25_free_overflow _ _ _ _ (by norm_num) (by norm_num) (by norm_num [Weir.crest])
      (by norm_num [Weir.crest])]
    norm_num [Weir.crest]

/-- **C27 is false (pump).** A pump with a quadratic curve, started from zero flow. -/
theorem C27_pump_at_rest (old : Lin) (Hu' Hd' : ℝ) :
    (pumpLin old 0 1 0 1 ⟨0, 0, 5, -5, 10, 1, 2⟩).eval Hu' Hd' = 0 ∧
    0 < pumpFlow 1 0 1 ⟨0, 0, 5, -5, 10, 1, 2⟩ := by
  constructor
  · rw [C11_pump_no_stale old ⟨0, 0, 0⟩]
    have : gammaP 0 1 ⟨0, 0, 5, -5, 10, 1, 2⟩ = 0 := by
      simp only [gammaP, abs_zero, safeDivide_eq]; norm_num
    simp only [pumpLin, this, Lin.eval]
    split_ifs <;> simp
  · simp only [pumpFlow]
    rw [if_pos (by norm_num)]
    apply Real.rpow_pos_of_pos
    norm_num [pumpHead]

/-- **C27 (partial).** The reported flow equals the flow moved in the head equations whenever the heads
and the linearisation flow are already consistent (a converged iteration) and the volume limit is not
active. Missing: the transient case, which is false. -/
theorem C27_converged_partial (old : Lin) (g Ao Co Hu Hd u Vu Vd dt : ℝ) (o : Orifice) (hg : 0 ≤ g)
    (h0 : 0 ≤ o.opening u) (hlim : |orificeRaw g Ao Co Hu Hd u o| ≤ (if Hu > Hd then Vu else Vd) / dt) :
    (orificeLin old g (orificeFlow g Ao Co Hu Hd u Vu Vd dt o) Ao Co Hu Hd u o).eval Hu Hd
      = orificeFlow g Ao Co Hu Hd u Vu Vd dt o := by
  have : orificeFlow g Ao Co Hu Hd u Vu Vd dt o = orificeRaw g Ao Co Hu Hd u o := by
    simp only [orificeFlow, orificeLimit, min_eq_left hlim, npSign]
    split_ifs with h1 h2
    · rw [abs_of_pos h1, one_mul]
    · rw [abs_of_neg h2]; ring
    · have : orificeRaw g Ao Co Hu Hd u o = 0 := le_antisymm (not_lt.mp h1) (not_lt.mp h2)
      rw [this]; simp
  rw [this]
  exact C24_orifice old g Ao Co Hu Hd u o hg h0

/-! ### Non-vacuity -/

example : (0:ℝ) ≤ (⟨0, 0, 1, 1, false⟩ : Orifice).opening (1/2) ∧
    ¬ ((0:ℝ) ≥ 2 ∧ (⟨0, 0, 1, 1, false⟩ : Orifice).unidir = true) := by
  constructor <;> norm_num [Orifice.opening]

example : Pump.Valid ⟨0, 0, 5, -5, 10, 1, 2⟩ := by constructor <;> norm_num

example : (0:ℝ) ≤ (⟨1, 0, 1, 2, 1, 3, 4⟩ : Weir).Cwr * (⟨1, 0, 1, 2, 1, 3, 4⟩ : Weir).L ∧
    (0:ℝ) ≤ (⟨1, 0, 1, 2, 1, 3, 4⟩ : Weir).crest (1/2) ∧ (⟨1, 0, 1, 2, 1, 3, 4⟩ : Weir).crest (1/2) < 3 := by
  refine ⟨?_, ?_, ?_⟩ <;> norm_num [Weir.crest]

end Pipedream.Control
