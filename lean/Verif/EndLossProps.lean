import Verif.TimeConsistencyProps

/-!
# C165: the head lost at a pipe end

At an end with a loss coefficient `C` the head lost is `C/(2 g A²)` times the flow before the step times the flow
after it, not times the square of either. Where the loss hardly changes from step to step the flow alternates
between two values, however short the steps are.
-/

namespace Pipedream.Step

open Pipedream.Sweep Pipedream.Link Pipedream.Superlink Pipedream.Control Pipedream.Network

noncomputable section

variable {m : Model} {geo : Geo} {inp : Inputs} {wk : Work} {s : Hyd} {co : Coef ℝ} {x : ℕ → ℝ}

/-- Head lost between superjunction and upstream end of superlink `k`. -/
def lostU (m : Model) (s : Hyd) (k : ℕ) : ℝ := s.H (m.Ju k) - m.z_uk k - s.h (m.ix.I_1k k)

/-- Head lost between downstream end of superlink `k` and superjunction. -/
def lostD (m : Model) (s : Hyd) (k : ℕ) : ℝ :=
  s.h (m.ix.I_1k k + m.ix.nk k) - (s.H (m.Jd k) - m.z_dk k)

/-- Reported end depths are those of the end relations, raised to `min_depth`. -/
theorem reported_ends (c : m.Consistent) {k : ℕ} (hk : k < m.ix.NK) :
    (m.advance geo inp wk s co x).h (m.ix.I_1k k)
      = max m.min_depth (endDepthU m geo wk s co (m.advance geo inp wk s co x).H k) ∧
    (m.advance geo inp wk s co x).h (m.ix.I_1k k + m.ix.nk k)
      = max m.min_depth (endDepthD m geo wk s co (m.advance geo inp wk s co x).H k) := by
  have Rel := numbaSolveInternals_spec (sweptFwd m.g co m.ix wk.f) (sweptBwd m.g co m.ix wk.b) m.min_depth
    m.max_depth_k (endDepthU m geo wk s co (m.advance geo inp wk s co x).H)
    (endDepthD m geo wk s co (m.advance geo inp wk s co x).H) m.ix.i_1k m.ix.I_1k m.ix.nk m.ix.NK m.back
    ⟨s.h, s.Q⟩ c.layout k hk
  have low : ∀ I, (m.advance geo inp wk s co x).h I = max m.min_depth
      ((numbaSolveInternals (sweptFwd m.g co m.ix wk.f) (sweptBwd m.g co m.ix wk.b) m.min_depth
        m.max_depth_k (endDepthU m geo wk s co (m.advance geo inp wk s co x).H)
        (endDepthD m geo wk s co (m.advance geo inp wk s co x).H) m.ix.i_1k m.ix.I_1k m.ix.nk m.ix.NK m.back
        ⟨s.h, s.Q⟩).h I) := by
    intro I
    show (if _ < m.min_depth then m.min_depth else _) = _
    split_ifs with h
    · exact (max_eq_left h.le).symm
    · exact (max_eq_right (not_lt.mp h)).symm
  have a : _ = _ := Rel.h0
  have b : _ = _ := Rel.hn
  exact ⟨by rw [low]; exact congrArg _ a, by rw [low]; exact congrArg _ b⟩

/-- **C165 (the loss of a step, upstream).** Where the head is above the end invert and the end depth is not
raised: the head lost after the step is that of the old flow times the new one. -/
theorem C165_upstream (c : m.Consistent) {k : ℕ} (hk : k < m.ix.NK) (g0 : 0 < m.g) (A0 : 0 < geo.A_u k)
    (wet : m.z_uk k ≤ s.H (m.Ju k)) (deep : m.min_depth < (m.advance geo inp wk s co x).h (m.ix.I_1k k)) :
    lostU m (m.advance geo inp wk s co x) k
      = m.C_uk k / (2 * m.g * geo.A_u k ^ 2) * (|s.Qu k| * (m.advance geo inp wk s co x).Qu k) := by
  have e := (reported_ends (geo := geo) (inp := inp) (wk := wk) (s := s) (co := co) (x := x) c hk).1
  have e : (m.advance geo inp wk s co x).h (m.ix.I_1k k)
      = endDepthU m geo wk s co (m.advance geo inp wk s co x).H k := by
    rcases le_total m.min_depth (endDepthU m geo wk s co (m.advance geo inp wk s co x).H k) with h | h
    · rw [e, max_eq_right h]
    · rw [e, max_eq_left h] at deep; exact absurd deep (lt_irrefl _)
  have e : (m.advance geo inp wk s co x).h (m.ix.I_1k k)
      = gammaUk (s.Qu k) (m.C_uk k) (geo.A_u k) m.g * (m.advance geo inp wk s co x).Qu k
        + theta (s.H (m.Ju k)) (m.z_uk k) * (m.advance geo inp wk s co x).H (m.Ju k)
        + -(theta (s.H (m.Ju k)) (m.z_uk k)) * m.z_uk k := e
  unfold lostU
  rw [e, theta, if_pos wet, gammaUk, safeDivide_eq]
  field_simp
  ring

/-- **C165 (the loss of a step, downstream).** -/
theorem C165_downstream (c : m.Consistent) {k : ℕ} (hk : k < m.ix.NK) (g0 : 0 < m.g) (A0 : 0 < geo.A_d k)
    (wet : m.z_dk k ≤ s.H (m.Jd k)) (deep : m.min_depth < (m.advance geo inp wk s co x).h (m.ix.I_1k k + m.ix.nk k)) :
    lostD m (m.advance geo inp wk s co x) k
      = m.C_dk k / (2 * m.g * geo.A_d k ^ 2) * (|s.Qd k| * (m.advance geo inp wk s co x).Qd k) := by
  have e := (reported_ends (geo := geo) (inp := inp) (wk := wk) (s := s) (co := co) (x := x) c hk).2
  have e : (m.advance geo inp wk s co x).h (m.ix.I_1k k + m.ix.nk k)
      = endDepthD m geo wk s co (m.advance geo inp wk s co x).H k := by
    rcases le_total m.min_depth (endDepthD m geo wk s co (m.advance geo inp wk s co x).H k) with h | h
    · rw [e, max_eq_right h]
    · rw [e, max_eq_left h] at deep; exact absurd deep (lt_irrefl _)
  have e : (m.advance geo inp wk s co x).h (m.ix.I_1k k + m.ix.nk k)
      = gammaDk (s.Qd k) (m.C_dk k) (geo.A_d k) m.g * (m.advance geo inp wk s co x).Qd k
        + theta (s.H (m.Jd k)) (m.z_dk k) * (m.advance geo inp wk s co x).H (m.Jd k)
        + -(theta (s.H (m.Jd k)) (m.z_dk k)) * m.z_dk k := e
  unfold lostD
  rw [e, theta, if_pos wet, gammaDk, safeDivide_eq]
  field_simp
  ring

/-- The loss law: head lost by a flow `Q` through an end of area `A`. -/
def lossLaw (g C A Q : ℝ) : ℝ := C / (2 * g * A ^ 2) * (|Q| * Q)

/-- **C165 (when the loss is that of the flow).** The head lost after a step is that of the reported flow exactly
if the flow kept its size, or vanishes, or the end has no loss. -/
theorem C165_iff (c : m.Consistent) {k : ℕ} (hk : k < m.ix.NK) (g0 : 0 < m.g) (A0 : 0 < geo.A_u k)
    (wet : m.z_uk k ≤ s.H (m.Ju k)) (deep : m.min_depth < (m.advance geo inp wk s co x).h (m.ix.I_1k k)) :
    lostU m (m.advance geo inp wk s co x) k = lossLaw m.g (m.C_uk k) (geo.A_u k) ((m.advance geo inp wk s co x).Qu k) ↔
      m.C_uk k = 0 ∨ (m.advance geo inp wk s co x).Qu k = 0 ∨ |s.Qu k| = |(m.advance geo inp wk s co x).Qu k| := by
  rw [C165_upstream c hk g0 A0 wet deep]
  unfold lossLaw
  have p : 2 * m.g * geo.A_u k ^ 2 ≠ 0 := by positivity
  constructor
  · intro h
    by_cases hC : m.C_uk k = 0
    · exact Or.inl hC
    have h := mul_left_cancel₀ (div_ne_zero hC p) h
    by_cases hQ : (m.advance geo inp wk s co x).Qu k = 0
    · exact Or.inr (Or.inl hQ)
    exact Or.inr (Or.inr (mul_right_cancel₀ hQ h))
  · rintro (h | h | h)
    · rw [h]; ring
    · rw [h]; ring
    · rw [h]

/-! ### Successive steps -/

/-- Successive passes: every state is what `advance` makes of the one before. -/
structure Passes (m : Model) (geo : ℕ → Geo) (st : ℕ → Hyd) : Prop where
  next : ∀ n, ∃ inp wk co x, st (n + 1) = m.advance (geo n) inp wk (st n) co x

/-- Every end loss of the run is a product of successive flows. -/
theorem C165_run (c : m.Consistent) {k : ℕ} (hk : k < m.ix.NK) (g0 : 0 < m.g) {geo : ℕ → Geo} {st : ℕ → Hyd}
    (run : Passes m geo st) (n : ℕ) (A0 : 0 < (geo n).A_u k) (wet : m.z_uk k ≤ (st n).H (m.Ju k))
    (deep : m.min_depth < (st (n + 1)).h (m.ix.I_1k k)) :
    lostU m (st (n + 1)) k = m.C_uk k / (2 * m.g * (geo n).A_u k ^ 2) * (|(st n).Qu k| * (st (n + 1)).Qu k) := by
  obtain ⟨inp, wk, co, x, e⟩ := run.next n
  rw [e] at deep ⊢
  exact C165_upstream c hk g0 A0 wet deep

/-- **C165 (two steps).** After two steps the flow through an end with a loss has its old size, apart from the
ratio of the two losses and of the two areas. -/
theorem C165_two_steps (c : m.Consistent) {k : ℕ} (hk : k < m.ix.NK) (g0 : 0 < m.g) {geo : ℕ → Geo} {st : ℕ → Hyd}
    (run : Passes m geo st) (C0 : m.C_uk k ≠ 0) (n : ℕ) (A0 : ∀ n, 0 < (geo n).A_u k)
    (wet : ∀ n, m.z_uk k ≤ (st n).H (m.Ju k))
    (deep : ∀ n, m.min_depth < (st n).h (m.ix.I_1k k)) (moving : (st (n + 1)).Qu k ≠ 0) :
    |(st (n + 2)).Qu k| * (|lostU m (st (n + 1)) k| * (geo n).A_u k ^ 2)
      = |(st n).Qu k| * (|lostU m (st (n + 2)) k| * (geo (n + 1)).A_u k ^ 2) := by
  rw [C165_run c hk g0 run n (A0 _) (wet _) (deep _), C165_run c hk g0 run (n + 1) (A0 _) (wet _) (deep _)]
  have a0 := (A0 n).ne'
  have a1 := (A0 (n + 1)).ne'
  simp only [abs_mul, abs_div, abs_abs, abs_two, abs_of_pos g0, abs_of_pos (pow_pos (A0 n) 2), abs_of_pos (pow_pos (A0 (n + 1)) 2)]
  field_simp

/-- **C165 (alternation).** As long as the head lost and the end area stay what they are, the flow through an end
with a loss alternates between two values and does not approach the flow which that loss belongs to. -/
theorem C165_alternates (c : m.Consistent) {k : ℕ} (hk : k < m.ix.NK) (g0 : 0 < m.g) {geo : ℕ → Geo} {st : ℕ → Hyd}
    (run : Passes m geo st) (C0 : 0 < m.C_uk k) (wet : ∀ n, m.z_uk k ≤ (st n).H (m.Ju k))
    (deep : ∀ n, m.min_depth < (st n).h (m.ix.I_1k k)) {A L : ℝ} (A0 : 0 < A) (L0 : 0 < L)
    (area : ∀ n, (geo n).A_u k = A) (lost : ∀ n, lostU m (st n) k = L) (start : 0 < (st 0).Qu k) (n : ℕ) :
    (st (2 * n)).Qu k = (st 0).Qu k ∧ (st (2 * n + 1)).Qu k = 2 * m.g * A ^ 2 * L / (m.C_uk k * (st 0).Qu k) := by
  have step : ∀ n, 0 < (st n).Qu k → (st (n + 1)).Qu k = 2 * m.g * A ^ 2 * L / (m.C_uk k * (st n).Qu k) := by
    intro n h
    have e := C165_run c hk g0 run n (by rw [area]; exact A0) (wet _) (deep _)
    rw [lost, area, abs_of_pos h] at e
    rw [e]
    field_simp
  have first : (st (2 * 0 + 1)).Qu k = 2 * m.g * A ^ 2 * L / (m.C_uk k * (st 0).Qu k) := step 0 start
  induction n with
  | zero => exact ⟨rfl, first⟩
  | succ n ih =>
    have p1 : 0 < (st (2 * n + 1)).Qu k := by rw [ih.2]; positivity
    have e2 : (st (2 * (n + 1))).Qu k = (st 0).Qu k := by
      rw [show 2 * (n + 1) = 2 * n + 1 + 1 by ring, step _ p1, ih.2]
      field_simp
    have e3 := step (2 * (n + 1)) (by rw [e2]; exact start)
    rw [e2] at e3
    exact ⟨e2, e3⟩

/-- **C165 (mean).** The mean of the flows before and after a step is at least the flow which the loss after the
step belongs to, and equal to it only if the flow did not change. -/
theorem C165_mean (c : m.Consistent) {k : ℕ} (hk : k < m.ix.NK) (g0 : 0 < m.g) (A0 : 0 < geo.A_u k)
    (wet : m.z_uk k ≤ s.H (m.Ju k)) (deep : m.min_depth < (m.advance geo inp wk s co x).h (m.ix.I_1k k))
    (C0 : 0 < m.C_uk k) (q0 : 0 ≤ s.Qu k) (q1 : 0 ≤ (m.advance geo inp wk s co x).Qu k) {q : ℝ} (hq : 0 ≤ q)
    (law : lostU m (m.advance geo inp wk s co x) k = lossLaw m.g (m.C_uk k) (geo.A_u k) q) :
    q ≤ (s.Qu k + (m.advance geo inp wk s co x).Qu k) / 2 ∧
    (q = (s.Qu k + (m.advance geo inp wk s co x).Qu k) / 2 → (m.advance geo inp wk s co x).Qu k = s.Qu k) := by
  rw [C165_upstream c hk g0 A0 wet deep] at law
  unfold lossLaw at law
  have h := mul_left_cancel₀ (by positivity : m.C_uk k / (2 * m.g * geo.A_u k ^ 2) ≠ 0) law
  rw [abs_of_nonneg q0, abs_of_nonneg hq] at h
  generalize (m.advance geo inp wk s co x).Qu k = b at *
  generalize s.Qu k = a at *
  constructor
  · nlinarith [sq_nonneg (a - b)]
  · intro e
    have : (a - b) ^ 2 = 0 := by rw [e] at h; nlinarith
    have := pow_eq_zero_iff (two_ne_zero) |>.mp this
    linarith

/-! ### Short steps -/

/-- **C165 (short steps).** From a state which fits together, as the step gets short the new end flow does not
come close to the old one but to that flow which with the old flow accounts for the head lost. -/
theorem C165_short (c : m.Consistent) (ps : PhysicalStep m geo inp) (cw : CleanWork m wk.mats)
    (he : m.end_method = .b) (ft : Fits m geo inp s) (int : Interior m s) {k : ℕ} (hk : k < m.ix.NK)
    (wet : m.z_uk k ≤ s.H (m.Ju k)) (C0 : 0 < m.C_uk k) (moving : s.Qu k ≠ 0) :
    ∃ C δ, 0 < δ ∧ ∀ dt, 0 < dt → dt < δ → ∀ co x, Pass m geo (inp.withStep dt) wk s s co x →
      |(m.advance geo (inp.withStep dt) wk s co x).Qu k
        - 2 * m.g * geo.A_u k ^ 2 * lostU m s k / (m.C_uk k * |s.Qu k|)| ≤ C * dt := by
  obtain ⟨R, δ, R0, δ0, h⟩ := short_small c ps cw he ft int
  have A0 := ft.A_u k hk
  have g0 := ps.g_pos
  have room : 0 < (s.h (m.ix.I_1k k) - m.min_depth) := by linarith [(int.ends k hk).1]
  refine ⟨2 * m.g * geo.A_u k ^ 2 / (m.C_uk k * |s.Qu k|) * (2 * R),
    min δ ((s.h (m.ix.I_1k k) - m.min_depth) / (R + 1)), lt_min δ0 (by positivity), fun dt dt0 dtd co x p => ?_⟩
  have sm := h dt dt0 (dtd.trans_le (min_le_left _ _)) co x p
  have near := dtd.trans_le (min_le_right _ _)
  rw [lt_div_iff₀ (by positivity)] at near
  have dh := abs_le.mp (sm.depths k hk 0 (Nat.zero_le _))
  have dH := abs_le.mp (sm.heads _ (c.Ju k hk))
  simp only [Nat.add_zero] at dh
  have e := C165_upstream (geo := geo) (inp := inp.withStep dt) (wk := wk) (co := co) (x := x) c hk g0 A0 wet
    (by linarith [dh.1])
  set n := m.advance geo (inp.withStep dt) wk s co x
  have q0 : 0 < |s.Qu k| := abs_pos.mpr moving
  have eq : n.Qu k - 2 * m.g * geo.A_u k ^ 2 * lostU m s k / (m.C_uk k * |s.Qu k|)
      = 2 * m.g * geo.A_u k ^ 2 / (m.C_uk k * |s.Qu k|) * (lostU m n k - lostU m s k) := by
    rw [e]; field_simp
  rw [eq, abs_mul, abs_of_pos (by positivity), mul_assoc _ (2 * R) dt]
  refine mul_le_mul_of_nonneg_left ?_ (by positivity)
  unfold lostU
  exact abs_le.mpr ⟨by linarith [dh.1, dh.2, dH.1, dH.2], by linarith [dh.1, dh.2, dH.1, dH.2]⟩

/-! ### A pipe whose flow leaps in short steps -/

/-- A pipe with a flow of 1 through its upstream end, whose end depth is lowered by twice the loss of this flow. -/
def exSurge : Hyd :=
  { exStill with
    Q := fun _ => 1
    Qu := fun _ => 1
    h := fun I => if I = 0 then 3 - 2 / 39.24 else 5 - exBed I }

theorem exSurgeFits : Fits (exModel false) exGeo exInp exSurge := by
  have k0 : ∀ k, k < (exModel false).ix.NK → k = 0 := fun k hk => by simp only [exModel] at hk; omega
  refine ⟨fun _ _ h => by simp [exModel] at h, fun j _ => by norm_num [exModel, exSurge, exStill],
    fun _ _ => by norm_num [exGeo], fun _ _ => by norm_num [exGeo], fun k hk => ?_, fun k hk j _ => ?_⟩
  · obtain rfl := k0 k hk
    exact ⟨⟨2, by norm_num [exModel, exGeo, exSurge, exStill]⟩, ⟨0, by norm_num [exModel, exGeo, exSurge, exStill, exBed]⟩⟩
  · obtain rfl := k0 k hk
    unfold surfaceArea; simp only [exModel, exGeo]; norm_num; split_ifs <;> norm_num

theorem exSurgeInterior : Interior (exModel false) exSurge := by
  have k0 : ∀ k, k < (exModel false).ix.NK → k = 0 := fun k hk => by simp only [exModel] at hk; omega
  refine ⟨fun i _ => by norm_num [exModel, exSurge, exStill], fun k hk j h1 h2 => ?_, fun k hk => ?_⟩
  · obtain rfl := k0 k hk
    have : j = 1 := by simp only [exModel] at h2; omega
    subst j
    norm_num [exModel, exSurge, exBed]
  · obtain rfl := k0 k hk
    norm_num [exModel, exSurge, exBed]

/-- **C165, refuted.** However short the step, the flow through the end leaps from 1 to more than 1.9, and the
head lost is not that of the reported flow. -/
theorem C165_leap : ∃ δ, 0 < δ ∧ ∀ dt, 0 < dt → dt < δ →
    (∃ co x, Pass (exModel false) exGeo (exInp.withStep dt) exWork exSurge exSurge co x) ∧
    ∀ co x, Pass (exModel false) exGeo (exInp.withStep dt) exWork exSurge exSurge co x →
      exSurge.Qu 0 = 1 ∧ 1.9 < ((exModel false).advance exGeo (exInp.withStep dt) exWork exSurge co x).Qu 0 ∧
      lostU (exModel false) ((exModel false).advance exGeo (exInp.withStep dt) exWork exSurge co x) 0
        ≠ lossLaw 9.81 0.5 1 (((exModel false).advance exGeo (exInp.withStep dt) exWork exSurge co x).Qu 0) := by
  have hk : 0 < (exModel false).ix.NK := by norm_num [exModel]
  obtain ⟨C, δ, δ0, h⟩ := C165_short (exConsistent false) (exPhysical false) (exClean false) rfl exSurgeFits
    exSurgeInterior hk (by norm_num [exModel, exSurge, exStill]) (by norm_num [exModel]) (by norm_num [exSurge])
  obtain ⟨R, δ', R0, δ0', h'⟩ := short_small (exConsistent false) (exPhysical false) (exClean false) rfl exSurgeFits exSurgeInterior
  refine ⟨min (min δ δ') (min (1 / 20 / (|C| + 1)) (1 / (R + 1))),
    lt_min (lt_min δ0 δ0') (lt_min (by positivity) (by positivity)), fun dt dt0 dtd => ⟨?_, fun co x p => ?_⟩⟩
  · exact C06_step_exists (exConsistent false) (physical_withStep (exPhysical false) dt0) (exClean false) (fun _ _ => Or.inl rfl)
  have d1 := (dtd.trans_le (min_le_left _ _)).trans_le (min_le_left _ _)
  have d2 := (dtd.trans_le (min_le_left _ _)).trans_le (min_le_right _ _)
  have d3 := (dtd.trans_le (min_le_right _ _)).trans_le (min_le_left _ _)
  have d4 := (dtd.trans_le (min_le_right _ _)).trans_le (min_le_right _ _)
  rw [lt_div_iff₀ (by positivity)] at d3 d4
  have q := h dt dt0 d1 co x p
  have sm := h' dt dt0 d2 co x p
  have q := abs_le.mp (q.trans (mul_le_mul_of_nonneg_right (le_abs_self C) dt0.le))
  have v : 2 * (exModel false).g * exGeo.A_u 0 ^ 2 * lostU (exModel false) exSurge 0 / ((exModel false).C_uk 0 * |exSurge.Qu 0|) = 2 := by
    norm_num [exModel, exGeo, lostU, exSurge, exStill]
  rw [v] at q
  have big : 1.9 < ((exModel false).advance exGeo (exInp.withStep dt) exWork exSurge co x).Qu 0 := by
    norm_num at q ⊢
    linarith [q.1]
  refine ⟨rfl, big, fun e => ?_⟩
  have dh := abs_le.mp (sm.depths 0 hk 0 (Nat.zero_le _))
  have deep : (exModel false).min_depth < ((exModel false).advance exGeo (exInp.withStep dt) exWork exSurge co x).h
      ((exModel false).ix.I_1k 0) := by
    have h0 : exSurge.h ((exModel false).ix.I_1k 0 + 0) = 3 - 2 / 39.24 := by norm_num [exModel, exSurge]
    rw [h0] at dh
    have := dh.1
    simp only [Nat.add_zero] at this
    have hm : (exModel false).min_depth = 0.01 := rfl
    rw [hm]
    norm_num at this ⊢
    linarith
  rcases (C165_iff (geo := exGeo) (inp := exInp.withStep dt) (wk := exWork) (co := co) (x := x) (exConsistent false) hk
    (exPhysical false).g_pos (by norm_num [exGeo]) (by norm_num [exModel, exSurge, exStill]) deep).mp e with h | h | h
  · norm_num [exModel] at h
  · rw [h] at big; norm_num at big
  · rw [show exSurge.Qu 0 = 1 from rfl, abs_one] at h
    rw [abs_of_pos (lt_trans (by norm_num) big)] at h
    rw [← h] at big
    norm_num at big

end

end Pipedream.Step
