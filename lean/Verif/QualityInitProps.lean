import Verif.QualityInitModel
import Verif.QualityImportProps
import Verif.QualityLinear

/-!
# C143: concentrations of a new water-quality model

The constructor ends with a step of a millionth of a second (nquality.py 225). That step attributes to the
millionth of a second the whole change of the water levels of the last hydraulic step.
-/

namespace Pipedream.Quality

open Pipedream.Step (Model Geo Hyd)

variable {t : Tables} {m : Model} {sh : Shapes} {geo : Geo} {kI ki : ℕ → ℕ} {prev next : Hyd}
  {Q_in Q_0Ik x : ℕ → ℝ}

/-- Specification: nothing is connected to superjunction `i`. -/
structure Isolated (w : Wiring) (i : ℕ) : Prop where
  links : ∀ k, k < w.ix.NK → w.Ju k ≠ i ∧ w.Jd k ≠ i
  orifices : ∀ k, k < w.n_o → w.Juo k ≠ i ∧ w.Jdo k ≠ i
  weirs : ∀ k, k < w.n_w → w.Juw k ≠ i ∧ w.Jdw k ≠ i
  pumps : ∀ k, k < w.n_p → w.Jup k ≠ i ∧ w.Jdp k ≠ i

theorem ctrlNet_isolated {K : Type*} [Field K] [LinearOrder K] {n : ℕ} {Ju Jd : ℕ → ℕ} (Q cj : ℕ → K) {i : ℕ}
    (h : ∀ k, k < n → Ju k ≠ i ∧ Jd k ≠ i) : ctrlNet n Ju Jd Q cj i = 0 := by
  unfold ctrlNet
  refine Finset.sum_eq_zero fun k hk => ?_
  obtain ⟨a, b⟩ := h k (Finset.mem_range.mp hk)
  rw [if_neg a, if_neg b, sub_zero]

theorem superNet_isolated {K : Type*} [Field K] [LinearOrder K] {w : Wiring} (p : Params K) (y : Hydro K)
    (new : Conc K) {i : ℕ} (h : Isolated w i) :
    superNet w p y new i = 0 := by
  unfold superNet
  rw [ctrlNet_isolated _ _ h.orifices, ctrlNet_isolated _ _ h.weirs, ctrlNet_isolated _ _ h.pumps,
    Finset.sum_eq_zero fun k hk => ?_]
  · simp only [add_zero]
  obtain ⟨a, b⟩ := h.links k (Finset.mem_range.mp hk)
  rw [if_neg a, if_neg b, sub_zero]

/-- Depth of water in superjunction `i` above its invert. -/
def depthOf (m : Model) (s : Hyd) (i : ℕ) : ℝ := s.H i - m.z_inv i

/-- **C143 (fixed superjunctions).** A superjunction with a fixed concentration starts with the one of the
table. -/
theorem C143_fixed (c : m.Consistent) (hx : HiddenSolved t m sh geo kI ki prev next Q_in Q_0Ik x) {i : ℕ}
    (hi : i < m.M) (hb : t.bc i = true) (hlim : InLimits t.c_min t.c_max (t.superjunctions.c_0 i)) :
    (newConc t m sh geo kI ki prev next Q_in Q_0Ik x).j i = t.superjunctions.c_0 i := by
  have s := ((solved_iff (wiring_wired (bc := t.bc) c) (cleanMats_zero _) x (fun _ => 0) (fun _ => 0)).mp hx).1 i hi hb
  have e : x i = t.superjunctions.c_0 i := s
  show limit t.c_min t.c_max (x i) = _
  rw [e]
  exact limit_eq hlim.1 hlim.2

/-- The balance the hidden step states for a tank. -/
theorem hidden_tank (c : m.Consistent) (hx : HiddenSolved t m sh geo kI ki prev next Q_in Q_0Ik x) {i : ℕ}
    (hi : i < m.M) (hb : t.bc i = false) (iso : Isolated (wiring m t.bc) i) (hA : geo.As i ≠ 0) :
    (2 * depthOf m next i - depthOf m prev i + 1e-6 * t.superjunctions.K i * depthOf m next i) * x i
      = depthOf m next i * t.superjunctions.c_0 i := by
  have s := ((solved_iff (wiring_wired (bc := t.bc) c) (cleanMats_zero _) x (fun _ => 0) (fun _ => 0)).mp hx).2 i hi hb
  rw [superNet_isolated _ _ _ iso] at s
  have s' : (2 * (geo.As i * depthOf m next i) - geo.As i * depthOf m prev i) / 1e-6 * x i
      + t.superjunctions.K i * (geo.As i * depthOf m next i) * x i + 0
      = geo.As i * depthOf m next i * t.superjunctions.c_0 i / 1e-6 + Q_in i * 0 := s
  refine mul_left_cancel₀ hA ?_
  have h6 : (1e-6 : ℝ) ≠ 0 := by norm_num
  field_simp at s'
  linear_combination s'

/-- **C143 (when a tank keeps its concentration).** A tank without connections starts with the concentration
of the table exactly if that is zero or the change of depth in the last hydraulic step makes up for the
reaction of a millionth of a second. -/
theorem C143_tank_iff (c : m.Consistent) (hx : HiddenSolved t m sh geo kI ki prev next Q_in Q_0Ik x) {i : ℕ}
    (hi : i < m.M) (hb : t.bc i = false) (iso : Isolated (wiring m t.bc) i) (hA : geo.As i ≠ 0)
    (hno : InLimits t.c_min t.c_max (x i))
    (hF : 2 * depthOf m next i - depthOf m prev i + 1e-6 * t.superjunctions.K i * depthOf m next i ≠ 0) :
    (newConc t m sh geo kI ki prev next Q_in Q_0Ik x).j i = t.superjunctions.c_0 i ↔
      t.superjunctions.c_0 i = 0 ∨
      depthOf m next i - depthOf m prev i = -(1e-6 * t.superjunctions.K i * depthOf m next i) := by
  have e := hidden_tank c hx hi hb iso hA
  have e2 : (newConc t m sh geo kI ki prev next Q_in Q_0Ik x).j i = x i := limit_eq hno.1 hno.2
  rw [e2]
  constructor
  · intro h
    rw [h] at e
    by_cases h0 : t.superjunctions.c_0 i = 0
    · exact Or.inl h0
    · right
      have := mul_right_cancel₀ h0 e
      linarith
  · rintro (h | h)
    · rw [h, mul_zero] at e
      rw [h]
      exact (mul_eq_zero.mp e).resolve_left hF
    · have h1 : 2 * depthOf m next i - depthOf m prev i + 1e-6 * t.superjunctions.K i * depthOf m next i
          = depthOf m next i := by linarith
      rw [h1] at e hF
      exact mul_left_cancel₀ hF e

/-- **C143 (a tank that was filled).** A tank whose depth rose from `a` to `b` in the last hydraulic step
starts with the share `b / (2b - a)` of the concentration of the table, however long ago that step was made
and however small its change of depth per second. -/
theorem C143_filled (c : m.Consistent) (hx : HiddenSolved t m sh geo kI ki prev next Q_in Q_0Ik x) {i : ℕ}
    (hi : i < m.M) (hb : t.bc i = false) (iso : Isolated (wiring m t.bc) i) (hA : geo.As i ≠ 0)
    (hK : t.superjunctions.K i = 0) (h0 : 0 < depthOf m next i) (hle : depthOf m prev i < depthOf m next i)
    (hc : 0 < t.superjunctions.c_0 i) (hmin : t.c_min = 0) (hmax : t.c_max = none) :
    (newConc t m sh geo kI ki prev next Q_in Q_0Ik x).j i
        = depthOf m next i / (2 * depthOf m next i - depthOf m prev i) * t.superjunctions.c_0 i ∧
      (newConc t m sh geo kI ki prev next Q_in Q_0Ik x).j i < t.superjunctions.c_0 i := by
  have e := hidden_tank c hx hi hb iso hA
  rw [hK, mul_zero, zero_mul, add_zero] at e
  have hF : 0 < 2 * depthOf m next i - depthOf m prev i := by linarith
  have ex : x i = depthOf m next i / (2 * depthOf m next i - depthOf m prev i) * t.superjunctions.c_0 i := by
    rw [div_mul_eq_mul_div, eq_div_iff hF.ne']
    linarith
  have hpos : 0 < x i := by rw [ex]; positivity
  have e2 : (newConc t m sh geo kI ki prev next Q_in Q_0Ik x).j i = x i :=
    limit_eq (by rw [hmin]; exact hpos.le) (by simp [hmax])
  rw [e2]
  refine ⟨ex, ?_⟩
  rw [ex]
  have : depthOf m next i / (2 * depthOf m next i - depthOf m prev i) < 1 := by
    rw [div_lt_one hF]; linarith
  nlinarith

/-- **C143 (a tank that was drained).** A tank that lost more than half of its depth in the last hydraulic
step starts empty of contaminant, whatever the table says. -/
theorem C143_erased (c : m.Consistent) (hx : HiddenSolved t m sh geo kI ki prev next Q_in Q_0Ik x) {i : ℕ}
    (hi : i < m.M) (hb : t.bc i = false) (iso : Isolated (wiring m t.bc) i) (hA : geo.As i ≠ 0)
    (hK : t.superjunctions.K i = 0) (h0 : 0 < depthOf m next i) (hd : 2 * depthOf m next i < depthOf m prev i)
    (hc : 0 < t.superjunctions.c_0 i) (hmin : t.c_min = 0) (hmax : t.c_max = none) :
    (newConc t m sh geo kI ki prev next Q_in Q_0Ik x).j i = 0 := by
  have e := hidden_tank c hx hi hb iso hA
  rw [hK, mul_zero, zero_mul, add_zero] at e
  have hneg : x i < 0 := by
    have h1 : 0 < depthOf m next i * t.superjunctions.c_0 i := mul_pos h0 hc
    by_contra h
    have := mul_nonneg (a := depthOf m prev i - 2 * depthOf m next i) (by linarith) (not_lt.mp h)
    nlinarith
  show limit t.c_min t.c_max (x i) = 0
  rw [hmin, hmax]
  simp [limit, hneg]

/-- **C143 (connected cells).** In any free superjunction the hidden step keeps the concentration of the table
exactly if the fluxes through its connections make up for `(V - V_prev)/1e-6 + K V`. -/
theorem C143_superjunction_iff (c : m.Consistent) (hx : HiddenSolved t m sh geo kI ki prev next Q_in Q_0Ik x) {i : ℕ}
    (hi : i < m.M) (hb : t.bc i = false)
    (hF : (2 * (geo.As i * depthOf m next i) - geo.As i * depthOf m prev i) / 1e-6
      + t.superjunctions.K i * (geo.As i * depthOf m next i) ≠ 0) (I i' : ℕ → ℝ) :
    x i = t.superjunctions.c_0 i ↔
      superNet (wiring m t.bc) (t.params kI ki) (hiddenHydro m sh geo prev next)
        (withEnds (wiring m t.bc) (t.params kI ki) (hiddenHydro m sh geo prev next) (hiddenInputs Q_in Q_0Ik)
          blankWork (t.conc m kI ki) x I i') i
        = -((geo.As i * (depthOf m next i - depthOf m prev i) / 1e-6
          + t.superjunctions.K i * (geo.As i * depthOf m next i)) * t.superjunctions.c_0 i) := by
  have s := ((solved_iff (wiring_wired (bc := t.bc) c) (cleanMats_zero _) x I i').mp hx).2 i hi hb
  generalize superNet (wiring m t.bc) (t.params kI ki) (hiddenHydro m sh geo prev next) _ i = net at s ⊢
  have s' : (2 * (geo.As i * depthOf m next i) - geo.As i * depthOf m prev i) / 1e-6 * x i
      + t.superjunctions.K i * (geo.As i * depthOf m next i) * x i + net
      = geo.As i * depthOf m next i * t.superjunctions.c_0 i / 1e-6 + Q_in i * 0 := s
  constructor
  · intro h
    rw [h] at s'
    linear_combination s'
  · intro h
    refine mul_left_cancel₀ hF ?_
    linear_combination s' - h

/-- **C143 (face flows).** The part of the face flows that accounts for the storage in a pipe is larger than in
the hydraulic step by the ratio of the step sizes: ten million for a step of ten seconds. -/
theorem C143_faces (k : ℕ) {dt : ℝ} (hdt : dt ≠ 0) :
    (hiddenHydro m sh geo prev next).Qu_up k - next.Qu k
        = dt / 1e-6 * ((hydro m sh geo dt prev next).Qu_up k - next.Qu k) ∧
      (hiddenHydro m sh geo prev next).Qd_dn k - next.Qd k
        = dt / 1e-6 * ((hydro m sh geo dt prev next).Qd_dn k - next.Qd k) := by
  simp only [hiddenHydro, hiddenDt, hydro, faceUp, faceDn]
  constructor <;> field_simp <;> ring

/-- Inflows of zero may have any concentration. -/
theorem coeffs_still (w : Wiring) (p : Params ℝ) (y : Hydro ℝ) (cl : Conc ℝ) (v : ℝ) :
    stepCoef w p y (hiddenInputs (fun _ => 0) fun _ => 0) cl
      = stepCoef w p y ⟨none, fun _ => v, fun _ => 0, fun _ => v, fun _ => 0⟩ cl := by
  simp only [stepCoef, coeffs, hiddenInputs, etaIk, mul_zero]

/-- **C143 (partial).** A quality model built on a hydraulic model whose last step was itself a millionth of a
second without inflow (as directly after its construction), and which balanced water, starts with the
concentrations of the tables if those are all equal and nothing reacts. -/
theorem C143_uniform_partial (c : m.Consistent) {v : ℝ}
    (P : Physical (wiring m t.bc) (t.params kI ki) (hiddenHydro m sh geo prev next)
      (hiddenInputs (fun _ => 0) fun _ => 0))
    (B : WaterBalance (wiring m t.bc) (hiddenHydro m sh geo prev next) (hiddenInputs (fun _ => 0) fun _ => 0))
    (hlim : InLimits t.c_min t.c_max v)
    (hKj : ∀ i, t.superjunctions.K i = 0) (hKk : ∀ k, t.superlinks.K k = 0)
    (hKI : ∀ l, t.junctions = some l → ∀ I, l.K I = 0) (hKi : ∀ l, t.links = some l → ∀ i, l.K i = 0)
    (hcj : ∀ i, t.superjunctions.c_0 i = v) (hck : ∀ k, t.superlinks.c_0 k = v)
    (hcI : ∀ l, t.junctions = some l → ∀ I, l.c_0 I = v) (hci : ∀ l, t.links = some l → ∀ i, l.c_0 i = v)
    (hx : HiddenSolved t m sh geo kI ki prev next (fun _ => 0) (fun _ => 0) x) :
    SameOn (wiring m t.bc) (newConc t m sh geo kI ki prev next (fun _ => 0) (fun _ => 0) x) (Conc.const v) := by
  have cI : ∀ I, (t.conc m kI ki).I I = v := by
    intro I
    simp only [Tables.conc]
    split
    · exact hcI _ (by assumption) I
    · exact hck _
  have W := wiring_wired (bc := t.bc) c
  have ind : ∀ v : ℝ, newConc t m sh geo kI ki prev next (fun _ => 0) (fun _ => 0) x
      = advance (wiring m t.bc) (t.params kI ki) t.c_min t.c_max (hiddenHydro m sh geo prev next)
        ⟨none, fun _ => v, fun _ => 0, fun _ => v, fun _ => 0⟩ blankWork (t.conc m kI ki) x := by
    intro v
    simp only [newConc, advance, rawU, rawD, raw1, rawNp1, stepEndRec, stepFwd, stepBwd, coeffs_still (v := v)]
  have hx' : Solved (wiring m t.bc) (t.params kI ki) (hiddenHydro m sh geo prev next)
      ⟨none, fun _ => v, fun _ => 0, fun _ => v, fun _ => 0⟩ blankWork (t.conc m kI ki) x := by
    have s := (solved_iff W (cleanMats_zero _) x (fun _ => 0) (fun _ => 0)).mp hx
    refine (solved_iff W (cleanMats_zero _) x (fun _ => 0) (fun _ => 0)).mpr ⟨s.1, fun i hi hb => ?_⟩
    have h := s.2 i hi hb
    simp only [hiddenInputs, mul_zero, zero_mul, superNet, withEnds, rawU, rawD, stepEndRec, stepFwd, stepBwd] at h ⊢
    have e := coeffs_still (wiring m t.bc) (t.params kI ki) (hiddenHydro m sh geo prev next) (t.conc m kI ki) v
    simp only [hiddenInputs] at e
    rw [← e]
    exact h
  have P' : Physical (wiring m t.bc) (t.params kI ki) (hiddenHydro m sh geo prev next)
      ⟨none, fun _ => v, fun _ => 0, fun _ => v, fun _ => 0⟩ :=
    ⟨P.dt, P.dx, P.A, P.D, P.Kr, P.AS, P.KrI, P.Q0I, P.dxu, P.Au, P.Du, P.dxd, P.Ad, P.Dd, P.V, P.Krj, P.Q0j⟩
  have B' : WaterBalance (wiring m t.bc) (hiddenHydro m sh geo prev next)
      ⟨none, fun _ => v, fun _ => 0, fun _ => v, fun _ => 0⟩ := ⟨B.link, B.node, B.up, B.dn, B.super⟩
  rw [ind v]
  refine C55_uniform_preserved (c := t.conc m kI ki) W P' B' (cleanMats_zero _) hlim.1 hlim.2 ?_ ?_ hKj ?_
    (fun i _ _ => hcj i) (fun _ => rfl) (fun _ => rfl) hx'
  · intro i
    simp only [Tables.params]
    split
    · exact hKi _ (by assumption) i
    · exact hKk _
  · intro i
    simp only [Tables.params]
    split
    · exact hKI _ (by assumption) i
    · exact hKk _
  · refine ⟨fun i _ => hcj i, fun _ _ _ _ => cI _, fun _ _ _ _ => ?_, fun k _ => ?_, fun k _ => ?_⟩
    · simp only [Tables.conc, Conc.const]
      split
      · exact hci _ (by assumption) _
      · exact hck _
    · show 0.5 * _ + 0.5 * (t.conc m kI ki).I _ = v
      rw [cI, hcj]; norm_num; ring
    · show 0.5 * _ + 0.5 * (t.conc m kI ki).I _ = v
      rw [cI, hcj]; norm_num; ring

/-- **C143 (end stretches).** The end stretches of a superlink have no row in any table: before the hidden step
they hold the mean of the concentrations of the superjunction and of the nearest junction. With the default
limits and no negative concentrations the hidden step keeps the substance of that mean. -/
theorem C143_end_stretches (c : m.Consistent) (hx : HiddenSolved t m sh geo kI ki prev next Q_in Q_0Ik x)
    (P : Physical (wiring m t.bc) (t.params kI ki) (hiddenHydro m sh geo prev next) (hiddenInputs Q_in Q_0Ik))
    (B : WaterBalance (wiring m t.bc) (hiddenHydro m sh geo prev next) (hiddenInputs Q_in Q_0Ik))
    (hlo : t.c_min = 0) (hhi : t.c_max = none) (hj : ∀ i, 0 ≤ t.superjunctions.c_0 i)
    (hI : ∀ l, t.junctions = some l → ∀ i, 0 ≤ l.c_0 i) (hi : ∀ l, t.links = some l → ∀ i, 0 ≤ l.c_0 i)
    (hs : ∀ k, 0 ≤ t.superlinks.c_0 k) {k : ℕ} (hk : k < m.ix.NK) {first last : ℝ}
    (hf : first = match t.junctions with
      | some l => l.c_0 (m.ix.I_1k k) | none => t.superlinks.c_0 (kI (m.ix.I_1k k)))
    (hl : last = match t.junctions with
      | some l => l.c_0 (m.ix.I_1k k + m.ix.nk k) | none => t.superlinks.c_0 (kI (m.ix.I_1k k + m.ix.nk k))) :
    let y := hiddenHydro m sh geo prev next
    let p := t.params kI ki
    let n := newConc t m sh geo kI ki prev next Q_in Q_0Ik x
    CellEq 1e-6 (y.dx_u k * y.A_u k) (y.dx_u k * y.A_u_prev k) 0 ((t.superjunctions.c_0 (m.Ju k) + first) / 2) (n.u k)
        (uFluxDn p y k (n.u k) (n.I (m.ix.I_1k k)) - uFluxUp p y k (n.j (m.Ju k)) (n.u k)) 0 ∧
      CellEq 1e-6 (y.dx_d k * y.A_d k) (y.dx_d k * y.A_d_prev k) 0 ((t.superjunctions.c_0 (m.Jd k) + last) / 2) (n.d k)
        (dFluxDn p y k (n.d k) (n.j (m.Jd k)) - dFluxUp p y k (n.I (m.ix.I_1k k + m.ix.nk k)) (n.d k)) 0 := by
  have cI : ∀ I, 0 ≤ (t.conc m kI ki).I I := fun I => by
    simp only [Tables.conc]
    split
    · exact hI _ (by assumption) _
    · exact hs _
  have C : AllGe (wiring m t.bc) 0 (t.conc m kI ki) := by
    refine ⟨fun i _ => hj i, fun _ _ _ _ => cI _, fun _ _ _ _ => ?_, fun k _ => ?_, fun k _ => ?_⟩
    · simp only [Tables.conc]
      split
      · exact hi _ (by assumption) _
      · exact hs _
    · have a := cI (m.ix.I_1k k)
      have b := hj (m.Ju k)
      show 0 ≤ 0.5 * t.superjunctions.c_0 _ + 0.5 * (t.conc m kI ki).I _
      positivity
    · have a := cI (m.ix.I_1k k + m.ix.nk k)
      have b := hj (m.Jd k)
      show 0 ≤ 0.5 * t.superjunctions.c_0 _ + 0.5 * (t.conc m kI ki).I _
      positivity
  have T := ((step_exact (d := ⟨t.params kI ki, hiddenHydro m sh geo prev next, hiddenInputs Q_in Q_0Ik, x⟩)
    (s := (t.conc m kI ki, blankWork)) (wiring_wired (bc := t.bc) c) (cleanMats_zero _) C
    ⟨P, B, ⟨fun i _ _ => hj i, fun _ _ _ => by simp [hiddenInputs], fun _ _ _ _ => by simp [hiddenInputs]⟩, hx⟩).1).links k hk
  have eu : (t.conc m kI ki).u k = (t.superjunctions.c_0 (m.Ju k) + first) / 2 := by
    have e : (t.conc m kI ki).I (m.ix.I_1k k) = first := by rw [hf]; simp only [Tables.conc]; cases t.junctions <;> rfl
    show 0.5 * t.superjunctions.c_0 (m.Ju k) + 0.5 * (t.conc m kI ki).I (m.ix.I_1k k) = _
    rw [e]; ring
  have ed : (t.conc m kI ki).d k = (t.superjunctions.c_0 (m.Jd k) + last) / 2 := by
    have e : (t.conc m kI ki).I (m.ix.I_1k k + m.ix.nk k) = last := by
      rw [hl]; simp only [Tables.conc]; cases t.junctions <;> rfl
    show 0.5 * t.superjunctions.c_0 (m.Jd k) + 0.5 * (t.conc m kI ki).I (m.ix.I_1k k + m.ix.nk k) = _
    rw [e]; ring
  have a := T.up
  have b := T.dn
  simp only at a b
  rw [eu] at a
  rw [ed] at b
  unfold newConc
  rw [hlo, hhi]
  exact ⟨a, b⟩

/-! ### Non-vacuity: a single tank of unit area and no pipes, filled from one metre to two. -/

noncomputable def tankM : Model := { Step.exModel false with M := 1, ix := { (Step.exModel false).ix with NK := 0 }, n_o := 0, n_w := 0, n_p := 0 }

noncomputable def tankT : Tables :=
  ⟨⟨fun _ => 0, fun _ => 0, fun _ => 9⟩, fun _ => false, ⟨fun _ => 0, fun _ => 0, fun _ => 0⟩, none, none, none, none, 0, none⟩

noncomputable def tankAt (H : ℝ) : Hyd := { Step.exStill with H := fun _ => H }

theorem tankM_consistent : tankM.Consistent := by
  refine ⟨⟨fun _ _ => ?_, fun k k' h h' hk => ?_, fun k k' h h' hk => ?_⟩, ?_, fun k hk => ⟨?_, ?_, ?_, ?_, ?_⟩,
    ?_, ?_, ?_, ?_, ?_, ?_, ?_, ?_⟩ <;> simp [tankM] at *

theorem tank_isolated : Isolated (wiring tankM tankT.bc) 0 := by
  constructor <;> intro k hk <;> simp [wiring, tankM] at hk

/-- The table says 9, the new model says 6. -/
example : ∃ x, HiddenSolved tankT tankM ⟨fun _ => 3, fun _ => 8, fun i => i⟩ { Step.exGeo with As := fun _ => 1 } id id (tankAt 1)
      (tankAt 2) (fun _ => 0) (fun _ => 0) x ∧
    (newConc tankT tankM ⟨fun _ => 3, fun _ => 8, fun i => i⟩ { Step.exGeo with As := fun _ => 1 } id id (tankAt 1) (tankAt 2)
      (fun _ => 0) (fun _ => 0) x).j 0 = 6 := by
  have hz : tankM.z_inv 0 = 0 := by simp [tankM, Step.exModel]
  have hs : HiddenSolved tankT tankM ⟨fun _ => 3, fun _ => 8, fun i => i⟩ { Step.exGeo with As := fun _ => 1 } id id (tankAt 1)
      (tankAt 2) (fun _ => 0) (fun _ => 0) (fun _ => 6) := by
    refine (solved_iff (wiring_wired tankM_consistent) (cleanMats_zero _) _ (fun _ => 0) (fun _ => 0)).mpr
      ⟨fun i _ hb => by simp [wiring, tankT] at hb, fun i hi _ => ?_⟩
    have hi0 : i = 0 := by simpa [wiring, tankM] using hi
    subst hi0
    rw [superNet_isolated _ _ _ tank_isolated]
    simp [CellEq, hiddenHydro, hydro, tankAt, tankT, Tables.params, Tables.conc, hiddenInputs, hiddenDt, hz]
    norm_num
  refine ⟨_, hs, ?_⟩
  have h := (C143_filled tankM_consistent hs (i := 0) (by simp [tankM]) rfl tank_isolated (by simp) rfl
    (by simp [depthOf, tankAt, hz]) (by simp [depthOf, tankAt, hz]) (by norm_num [tankT]) rfl rfl).1
  rw [h]
  norm_num [depthOf, tankAt, hz, tankT]

/-- The hypotheses of `C143_uniform_partial` hold for the tank at rest. -/
example : Physical (wiring tankM tankT.bc) (tankT.params id id)
      (hiddenHydro tankM ⟨fun _ => 3, fun _ => 8, fun i => i⟩ { Step.exGeo with As := fun _ => 1 } (tankAt 1) (tankAt 1))
      (hiddenInputs (fun _ => 0) fun _ => 0) ∧
    WaterBalance (wiring tankM tankT.bc)
      (hiddenHydro tankM ⟨fun _ => 3, fun _ => 8, fun i => i⟩ { Step.exGeo with As := fun _ => 1 } (tankAt 1) (tankAt 1))
      (hiddenInputs (fun _ => 0) fun _ => 0) := by
  have hz : ∀ i, tankM.z_inv i = 0 := by simp [tankM, Step.exModel]
  constructor
  · constructor <;> intros <;> simp_all [wiring, tankM, hiddenHydro, hydro, hiddenDt, tankAt, hiddenInputs, tankT,
      Tables.params, Step.exModel]
    norm_num
  · constructor <;> intros <;> simp_all [wiring, tankM, hiddenHydro, hydro, hiddenDt, tankAt, hiddenInputs, superQ, ctrlQ]

/-- The pipe of `C78` with end stretches of one metre, still water of depth 2: superjunctions hold 3, the pipe 5. -/
noncomputable def endM : Model := { exM with dx_uk := fun _ => 1, dx_dk := fun _ => 1 }

noncomputable def endT : Tables :=
  ⟨⟨fun _ => 0, fun _ => 0, fun _ => 3⟩, fun _ => false, ⟨fun _ => 0, fun _ => 1, fun _ => 5⟩, none, none, none, none, 0, none⟩

noncomputable def endS : Hyd := ⟨fun _ => 2, fun _ => 2, fun _ => 0, fun _ => 0, fun _ => 0, fun _ => 0, fun _ => 0, fun _ => 0⟩

noncomputable def endG : Geo := { exG with A := fun _ => 2, B := fun _ => 1, B_u := fun _ => 1, B_d := fun _ => 1, As := fun _ => 1 }

theorem endM_consistent : endM.Consistent := by
  refine ⟨⟨fun _ _ => ?_, fun k k' h h' hk => ?_, fun k k' h h' hk => ?_⟩, ?_, fun k hk => ⟨?_, ?_, ?_, ?_, ?_⟩,
    ?_, ?_, ?_, ?_, ?_, ?_, ?_, ?_⟩ <;> simp [endM, exM, Step.exModel] at * <;> try omega

theorem end_physical : Physical (wiring endM endT.bc) (endT.params id fun _ => 0) (hiddenHydro endM exSh endG endS endS)
    (hiddenInputs (fun _ => 0) fun _ => 0) := by
  constructor <;> intros <;> norm_num [wiring, endM, exM, hiddenHydro, hydro, hiddenDt, endS, hiddenInputs, endT, endG,
    Tables.params, Step.exModel, exSh, areaBy]

theorem end_balance : WaterBalance (wiring endM endT.bc) (hiddenHydro endM exSh endG endS endS)
    (hiddenInputs (fun _ => 0) fun _ => 0) := by
  constructor <;> intros <;> norm_num [wiring, endM, exM, hiddenHydro, hydro, hiddenDt, endS, hiddenInputs, endT, endG,
    Tables.params, Step.exModel, exSh, areaBy, faceUp, faceDn, nodeQin, nodeQout, superQ, ctrlQ]

/-- The upstream end stretch starts between 3 and 5. -/
example : ∃ x, HiddenSolved endT endM exSh endG id (fun _ => 0) endS endS (fun _ => 0) (fun _ => 0) x ∧
    let n := newConc endT endM exSh endG id (fun _ => 0) endS endS (fun _ => 0) (fun _ => 0) x
    2000000 * (n.u 0 - 4) = 4 * (n.I 0 - n.u 0) + 4 * (n.j 0 - n.u 0) := by
  obtain ⟨x, hx⟩ := (C75_solvable (c := endT.conc endM id fun _ => 0) (wk := blankWork) (wiring_wired endM_consistent)
    end_physical end_balance (cleanMats_zero _)).1
  refine ⟨x, hx, ?_⟩
  have h := (C143_end_stretches endM_consistent hx end_physical end_balance rfl rfl (fun _ => by norm_num [endT])
    (fun _ h => by simp [endT] at h) (fun _ h => by simp [endT] at h) (fun _ => by norm_num [endT]) (k := 0)
    (by norm_num [endM, exM, Step.exModel]) (first := 5) (last := 5) rfl rfl).1
  intro n
  change CellEq _ _ _ 0 _ (n.u 0) (uFluxDn _ _ 0 (n.u 0) (n.I 0) - uFluxUp _ _ 0 (n.j 0) (n.u 0)) 0 at h
  generalize n.u 0 = u at h ⊢
  generalize n.I 0 = I at h ⊢
  generalize n.j 0 = j at h ⊢
  norm_num [CellEq, uFluxDn, uFluxUp, flux, cond, hiddenHydro, hydro, hiddenDt, endS, endM, exM, endG, endT,
    Tables.params, Step.exModel, exSh, areaBy, faceUp, faceDn] at h
  linarith

end Pipedream.Quality
