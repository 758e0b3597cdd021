import Verif.OrificeMonoProps
import Mathlib.Analysis.SpecialFunctions.Pow.Continuity

/-!
# C166: where control flows vary continuously with the water levels

Reported flows of weirs, orifices and pumps as functions of the two heads. Weir flow is continuous everywhere.
Orifice flow jumps exactly where the higher water passes the crown of the opening, and where the two waters pass
each other between sill and crown. Pump flow jumps exactly where the pump switches on.
-/

namespace Pipedream.Control

noncomputable section

/-! ### Weirs -/

/-- The effective head of a weir is the difference of the heads, both measured no lower than the crest. -/
theorem weirHead_crest (Hu Hd u : ℝ) (w : Weir) :
    weirHead Hu Hd u w = |max Hu (w.crest u) - max Hd (w.crest u)| := by
  rw [weirHead_eq]
  generalize w.crest u = c
  rcases le_total Hu Hd with h | h
  · rw [min_eq_left h, max_eq_right h]
    split_ifs with h1
    · rw [max_eq_left h1.le, max_eq_left (h1.le.trans h)]
    · rw [max_eq_right (not_lt.mp h1), abs_sub_comm, abs_of_nonneg (sub_nonneg.mpr (le_max_right _ _)),
        ← max_sub_sub_right, sub_self]
  · rw [min_eq_right h, max_eq_left h]
    split_ifs with h1
    · rw [max_eq_left h1.le, max_eq_left (h1.le.trans h)]
    · rw [max_eq_right (not_lt.mp h1), abs_of_nonneg (sub_nonneg.mpr (le_max_right _ _)),
        ← max_sub_sub_right, sub_self]

/-- Weir flow as a function of the signed effective head. -/
def weirLaw (w : Weir) (d : ℝ) : ℝ :=
  if 0 ≤ d then Real.sqrt (weirConv w |d| * |d|) else -Real.sqrt (weirConv w |d| * |d|)

theorem weirLaw_continuous (w : Weir) : Continuous (weirLaw w) := by
  unfold weirLaw
  have k : Continuous fun d : ℝ => Real.sqrt (weirConv w |d| * |d|) := by
    unfold weirConv; fun_prop
  exact Continuous.if_le k k.neg continuous_const continuous_id (fun d hd => by subst hd; simp)

theorem weirFlow_law (Hu Hd u : ℝ) (w : Weir) :
    weirFlow Hu Hd u w = weirLaw w (max Hu (w.crest u) - max Hd (w.crest u)) := by
  unfold weirFlow weirLaw sgn
  dsimp only
  rw [weirHead_crest]
  rcases le_or_gt Hd Hu with h | h
  · have : 0 ≤ max Hu (w.crest u) - max Hd (w.crest u) := sub_nonneg.mpr (max_le_max_right _ h)
    rw [if_pos h, if_pos this, one_mul]
  · rw [if_neg (not_le.mpr h)]
    have h1 : max Hu (w.crest u) - max Hd (w.crest u) ≤ 0 := sub_nonpos.mpr (max_le_max_right _ h.le)
    rcases h1.eq_or_lt with e | l
    · rw [e]; simp
    · rw [if_neg (not_le.mpr l)]; ring

/-- **C166 (weirs).** Weir flow varies continuously with both heads and the opening. -/
theorem C166_weir (w : Weir) : Continuous fun p : ℝ × ℝ × ℝ => weirFlow p.1 p.2.1 p.2.2 w := by
  simp only [weirFlow_law]
  refine (weirLaw_continuous w).comp ?_
  unfold Weir.crest
  fun_prop

/-! ### Orifices -/

/-- The law of a two-way orifice in the higher and lower head. -/
theorem orificeRaw_law {g Ao Co Hu Hd u : ℝ} {o : Orifice} (hg : 0 ≤ g) (ht : 0 ≤ o.opening u) (two : o.unidir = false) :
    orificeRaw g Ao Co Hu Hd u o = sgn Hu Hd *
      Real.sqrt (2 * g * Co ^ 2 * Ao ^ 2 * drive o.bottom (o.opening u) (max Hu Hd) (min Hu Hd)) := by
  rcases le_or_gt Hd Hu with h | h
  · rw [orificeRaw_forward hg ht h (by simp [two]), max_eq_left h, min_eq_right h, sgn, if_pos h, one_mul]
  rw [max_eq_right h.le, min_eq_left h.le]
  have dn := drive_nonneg (b := o.bottom) ht h.le
  have gn : 0 ≤ 2 * g * Co ^ 2 * Ao ^ 2 := by positivity
  obtain ⟨e, hr, he⟩ := orificeCoef_regime ⟨0, 0, 0⟩ (2 * g * Co ^ 2 * Ao ^ 2) Hu Hd u o ht
    (by rintro ⟨_, b⟩; simp [two] at b)
  have hd : e = -drive o.bottom (o.opening u) Hd Hu := by
    unfold drive
    cases hr with
    | submerged hi lo =>
      rw [max_eq_right h.le] at hi; rw [min_eq_left h.le] at lo
      rw [if_pos hi, max_eq_left lo.le]; ring
    | free_fwd d hi lo => exact absurd d (not_le.mpr h)
    | free_bwd d hi lo => rw [if_pos hi, max_eq_right lo]
    | weir_fwd d hi lo => exact absurd d (not_le.mpr h)
    | weir_bwd d hi lo => rw [if_neg (not_lt.mpr hi), if_pos lo]
    | dry hi =>
      rw [max_eq_right h.le] at hi
      rw [if_neg (by linarith), if_neg (by linarith), neg_zero]
  unfold Lin.eval at he
  simp only [orificeRaw, he, hd]
  rw [mul_neg, abs_neg, abs_of_nonneg (mul_nonneg gn dn)]

/-- The driving head is continuous off the crown. -/
theorem drive_continuousAt {b t : ℝ} {p : ℝ × ℝ} (h : max p.1 p.2 ≠ b + t) :
    ContinuousAt (fun p : ℝ × ℝ => drive b t (max p.1 p.2) (min p.1 p.2)) p := by
  have cm : Continuous fun p : ℝ × ℝ => max p.1 p.2 := by fun_prop
  rcases lt_or_gt_of_ne h with l | l
  · have e : (fun p : ℝ × ℝ => drive b t (max p.1 p.2) (min p.1 p.2)) =ᶠ[nhds p] fun p => max (max p.1 p.2 - b) 0 := by
      filter_upwards [cm.continuousAt.eventually_lt continuousAt_const l] with q hq
      unfold drive
      rw [if_neg (not_lt.mpr (le_of_lt hq))]
      split_ifs with h1
      · exact (max_eq_left (sub_nonneg.mpr h1.le)).symm
      · exact (max_eq_right (sub_nonpos.mpr (not_lt.mp h1))).symm
    rw [continuousAt_congr e]
    fun_prop
  · have e : (fun p : ℝ × ℝ => drive b t (max p.1 p.2) (min p.1 p.2)) =ᶠ[nhds p]
        fun p => max p.1 p.2 - max (min p.1 p.2) (b + t / 2) := by
      filter_upwards [continuousAt_const.eventually_lt cm.continuousAt l] with q hq
      unfold drive
      rw [if_pos hq]
    rw [continuousAt_congr e]
    fun_prop

/-- **C166 (orifices).** The flow of an open two-way orifice is continuous in the heads except where the higher water
stands at the crown, and where both stand at the same level between sill and crown. -/
theorem C166_orifice_iff {g Ao Co u : ℝ} {o : Orifice} (hg : 0 < g) (hC : Co ≠ 0) (hA : Ao ≠ 0) (ht : 0 < o.opening u)
    (two : o.unidir = false) (p : ℝ × ℝ) :
    ContinuousAt (fun p : ℝ × ℝ => orificeRaw g Ao Co p.1 p.2 u o) p ↔
      max p.1 p.2 ≠ o.bottom + o.opening u ∧ ¬ (p.1 = p.2 ∧ o.bottom < p.1 ∧ p.1 < o.bottom + o.opening u) := by
  have ef : (fun p : ℝ × ℝ => orificeRaw g Ao Co p.1 p.2 u o) = fun p => sgn p.1 p.2 *
      Real.sqrt (2 * g * Co ^ 2 * Ao ^ 2 * drive o.bottom (o.opening u) (max p.1 p.2) (min p.1 p.2)) := by
    funext p; exact orificeRaw_law hg.le ht.le two
  rw [ef]
  have G0 : 0 < 2 * g * Co ^ 2 * Ao ^ 2 := by positivity
  generalize 2 * g * Co ^ 2 * Ao ^ 2 = G at G0 ⊢
  generalize o.bottom = b
  generalize o.opening u = t at ht ⊢
  obtain ⟨x, y⟩ := p
  dsimp only
  have sq : ∀ p : ℝ × ℝ, (sgn p.1 p.2 * Real.sqrt (G * drive b t (max p.1 p.2) (min p.1 p.2))) ^ 2
      = G * drive b t (max p.1 p.2) (min p.1 p.2) := by
    intro p
    have : sgn p.1 p.2 ^ 2 = 1 := by unfold sgn; split_ifs <;> norm_num
    rw [mul_pow, this, one_mul, Real.sq_sqrt (mul_nonneg G0.le (drive_nonneg ht.le min_le_max))]
  constructor
  · intro h
    have h2 : ContinuousAt (fun p : ℝ × ℝ => G * drive b t (max p.1 p.2) (min p.1 p.2)) (x, y) := by
      have := h.pow 2
      rwa [show (fun p : ℝ × ℝ => sgn p.1 p.2 * Real.sqrt (G * drive b t (max p.1 p.2) (min p.1 p.2))) ^ 2
        = fun p : ℝ × ℝ => G * drive b t (max p.1 p.2) (min p.1 p.2) from funext sq] at this
    have h3 : ContinuousAt (fun p : ℝ × ℝ => drive b t (max p.1 p.2) (min p.1 p.2)) (x, y) := by
      have := h2.const_mul G⁻¹
      simpa only [inv_mul_cancel_left₀ G0.ne'] using this
    constructor
    · -- at the crown
      intro hc
      have line : ContinuousAt (fun e : ℝ => drive b t (max (x + e) (y + e)) (min (x + e) (y + e))) 0 := by
        have l : ContinuousAt (fun e : ℝ => ((x + e, y + e) : ℝ × ℝ)) 0 := by fun_prop
        have h3' : ContinuousAt (fun p : ℝ × ℝ => drive b t (max p.1 p.2) (min p.1 p.2)) (x + 0, y + 0) := by
          simpa using h3
        exact ContinuousAt.comp (f := fun e : ℝ => ((x + e, y + e) : ℝ × ℝ)) (x := (0 : ℝ))
          (g := fun p : ℝ × ℝ => drive b t (max p.1 p.2) (min p.1 p.2)) h3' l
      obtain ⟨δ, δ0, hδ⟩ := Metric.continuousAt_iff.mp line (t / 4) (by linarith)
      have e0 : 0 < min (δ / 2) (t / 8) := lt_min (by linarith) (by linarith)
      have e1 := min_le_left (δ / 2) (t / 8)
      have e2 := min_le_right (δ / 2) (t / 8)
      generalize min (δ / 2) (t / 8) = e at e0 e1 e2
      have hd : dist e 0 < δ := by rw [Real.dist_eq, sub_zero, abs_of_pos e0]; linarith
      have := hδ hd
      rw [Real.dist_eq, max_add_add_right, min_add_add_right, add_zero, add_zero, hc] at this
      unfold drive at this
      rw [if_pos (by linarith : b + t < b + t + e), if_neg (lt_irrefl _), if_pos (by linarith : b < b + t)] at this
      have a := (abs_lt.mp this).1
      have m1 := le_max_right (min x y + e) (b + t / 2)
      linarith
    · -- equal levels between sill and crown
      rintro ⟨e, l1, l2⟩
      subst e
      obtain ⟨δ, δ0, hδ⟩ := Metric.continuousAt_iff.mp h (Real.sqrt (G * (x - b))) (Real.sqrt_pos.mpr (mul_pos G0 (by linarith)))
      have hd : dist ((x - δ / 2, x) : ℝ × ℝ) (x, x) < δ := by
        rw [Prod.dist_eq, dist_self, Real.dist_eq]
        simp only [sub_sub_cancel_left, abs_neg]
        rw [abs_of_pos (by linarith), max_eq_left (by linarith)]; linarith
      have := hδ hd
      dsimp only at this
      rw [Real.dist_eq, max_eq_right (by linarith : x - δ / 2 ≤ x), max_self, min_self] at this
      unfold drive sgn at this
      rw [if_neg (by linarith : ¬ x - δ / 2 ≥ x), if_pos (le_refl x), if_neg (by linarith : ¬ b + t < x), if_pos l1] at this
      rw [if_neg (by linarith : ¬ b + t < x)] at this
      have := (abs_lt.mp this).1
      linarith [Real.sqrt_pos.mpr (mul_pos G0 (by linarith : 0 < x - b))]
  · rintro ⟨h1, h2⟩
    have cd := drive_continuousAt (b := b) (t := t) (p := (x, y)) h1
    have cs : ContinuousAt (fun p : ℝ × ℝ => Real.sqrt (G * drive b t (max p.1 p.2) (min p.1 p.2))) (x, y) :=
      (cd.const_mul G).sqrt
    rcases lt_trichotomy x y with l | e | l
    · have ev : (fun p : ℝ × ℝ => sgn p.1 p.2 * Real.sqrt (G * drive b t (max p.1 p.2) (min p.1 p.2))) =ᶠ[nhds (x, y)]
          fun p => -Real.sqrt (G * drive b t (max p.1 p.2) (min p.1 p.2)) := by
        filter_upwards [(continuousAt_fst (p := ((x, y) : ℝ × ℝ))).eventually_lt continuousAt_snd l] with q hq
        rw [sgn, if_neg (not_le.mpr hq)]; ring
      rw [continuousAt_congr ev]
      exact cs.neg
    · subst e
      have z : drive b t (max x x) (min x x) = 0 := by
        rw [max_self, min_self]
        rw [max_self] at h1
        unfold drive
        split_ifs with a c
        · rw [max_eq_left (by linarith), sub_self]
        · exact absurd ⟨rfl, c, lt_of_le_of_ne (not_lt.mp a) h1⟩ h2
        · rfl
      have z2 : sgn x x * Real.sqrt (G * drive b t (max x x) (min x x)) = 0 := by rw [z]; simp
      have t0 : Filter.Tendsto (fun p : ℝ × ℝ => Real.sqrt (G * drive b t (max p.1 p.2) (min p.1 p.2))) (nhds (x, x)) (nhds 0) := by
        have := cs.tendsto
        dsimp only at this
        rwa [z, mul_zero, Real.sqrt_zero] at this
      unfold ContinuousAt
      dsimp only
      rw [z2]
      refine squeeze_zero_norm (fun p => ?_) t0
      have : |sgn p.1 p.2| = 1 := by unfold sgn; split_ifs <;> norm_num
      rw [Real.norm_eq_abs, abs_mul, this, one_mul, abs_of_nonneg (Real.sqrt_nonneg _)]
    · have ev : (fun p : ℝ × ℝ => sgn p.1 p.2 * Real.sqrt (G * drive b t (max p.1 p.2) (min p.1 p.2))) =ᶠ[nhds (x, y)]
          fun p => Real.sqrt (G * drive b t (max p.1 p.2) (min p.1 p.2)) := by
        filter_upwards [(continuousAt_snd (p := ((x, y) : ℝ × ℝ))).eventually_lt continuousAt_fst l] with q hq
        rw [sgn, if_pos hq.le]; ring
      rw [continuousAt_congr ev]
      exact cs

/-- A one-way orifice passes what a two-way one passes forward, and nothing otherwise. -/
theorem orificeRaw_oneway {g Ao Co Hu Hd u : ℝ} {o : Orifice} (hg : 0 ≤ g) (ht : 0 ≤ o.opening u) (one : o.unidir = true) :
    orificeRaw g Ao Co Hu Hd u o = if Hd < Hu then orificeRaw g Ao Co Hu Hd u { o with unidir := false } else 0 := by
  split_ifs with h
  · rw [orificeRaw_forward hg ht h.le (fun _ => h), orificeRaw_forward (o := { o with unidir := false }) hg ht h.le (by simp)]
    rfl
  · unfold orificeRaw orificeCoef
    dsimp only
    rw [if_pos (Or.inr ⟨not_lt.mp h, one⟩)]
    simp

/-- **C166 (one-way orifices).** The flow of an open one-way orifice is continuous in the heads except where the source
stands at the crown, and where both stand at the same level between sill and crown. -/
theorem C166_oneway_iff {g Ao Co u : ℝ} {o : Orifice} (hg : 0 < g) (hC : Co ≠ 0) (hA : Ao ≠ 0) (ht : 0 < o.opening u)
    (one : o.unidir = true) (p : ℝ × ℝ) :
    ContinuousAt (fun p : ℝ × ℝ => orificeRaw g Ao Co p.1 p.2 u o) p ↔
      p.1 < p.2 ∨ (p.1 ≠ o.bottom + o.opening u ∧ ¬ (p.1 = p.2 ∧ o.bottom < p.1 ∧ p.1 < o.bottom + o.opening u)) := by
  have ef : (fun p : ℝ × ℝ => orificeRaw g Ao Co p.1 p.2 u o) = fun p => if p.2 < p.1 then
      orificeRaw g Ao Co p.1 p.2 u { o with unidir := false } else 0 := by
    funext p; exact orificeRaw_oneway hg.le ht.le one
  have two := C166_orifice_iff (o := { o with unidir := false }) hg hC hA ht rfl p
  rw [ef]
  obtain ⟨x, y⟩ := p
  dsimp only at two ⊢
  have eb : Orifice.bottom { o with unidir := false } = o.bottom := rfl
  have eo : Orifice.opening { o with unidir := false } u = o.opening u := rfl
  rw [eb, eo] at two
  rcases lt_trichotomy x y with l | e | l
  · refine ⟨fun _ => Or.inl l, fun _ => ?_⟩
    have ev : (fun p : ℝ × ℝ => if p.2 < p.1 then orificeRaw g Ao Co p.1 p.2 u { o with unidir := false } else 0)
        =ᶠ[nhds (x, y)] fun _ => 0 := by
      filter_upwards [(continuousAt_fst (p := ((x, y) : ℝ × ℝ))).eventually_lt continuousAt_snd l] with q hq
      rw [if_neg (not_lt.mpr hq.le)]
    rw [continuousAt_congr ev]
    exact continuousAt_const
  · subst e
    have G0 : 0 < 2 * g * Co ^ 2 * Ao ^ 2 := by positivity
    constructor
    · intro h
      right
      by_contra hn
      have hx : o.bottom < x ∧ x ≤ o.bottom + o.opening u := by
        by_cases e : x = o.bottom + o.opening u
        · exact ⟨by linarith, e.le⟩
        · by_contra hx
          exact hn ⟨e, fun a => hx ⟨a.2.1, a.2.2.le⟩⟩
      obtain ⟨δ, δ0, hδ⟩ := Metric.continuousAt_iff.mp h (Real.sqrt (2 * g * Co ^ 2 * Ao ^ 2 * (x - o.bottom)))
        (Real.sqrt_pos.mpr (mul_pos G0 (by linarith)))
      have hd : dist ((x, x - δ / 2) : ℝ × ℝ) (x, x) < δ := by
        rw [Prod.dist_eq, dist_self, Real.dist_eq]
        simp only [sub_sub_cancel_left, abs_neg]
        rw [abs_of_pos (by linarith), max_eq_right (by linarith)]; linarith
      have := hδ hd
      dsimp only at this
      rw [if_pos (by linarith), if_neg (lt_irrefl _), Real.dist_eq, sub_zero,
        orificeRaw_forward (o := { o with unidir := false }) hg.le ht.le (by linarith) (by simp), eb, eo, drive,
        if_neg (not_lt.mpr hx.2), if_pos hx.1, abs_of_nonneg (Real.sqrt_nonneg _)] at this
      exact lt_irrefl _ this
    · rintro (h | h)
      · exact absurd h (lt_irrefl _)
      · have c2 := two.mpr (by rwa [max_self])
        have z : orificeRaw g Ao Co x x u { o with unidir := false } = 0 := by
          rw [orificeRaw_forward (o := { o with unidir := false }) hg.le ht.le le_rfl (by simp), eb, eo]
          have : drive o.bottom (o.opening u) x x = 0 := by
            unfold drive
            split_ifs with a c
            · rw [max_eq_left (by linarith), sub_self]
            · exact absurd ⟨rfl, c, lt_of_le_of_ne (not_lt.mp a) h.1⟩ h.2
            · rfl
          rw [this]; simp
        have t0 : Filter.Tendsto (fun p : ℝ × ℝ => ‖orificeRaw g Ao Co p.1 p.2 u { o with unidir := false }‖)
            (nhds (x, x)) (nhds 0) := by
          have := c2.norm.tendsto
          dsimp only at this
          rwa [z, norm_zero] at this
        unfold ContinuousAt
        dsimp only
        rw [if_neg (lt_irrefl _)]
        refine squeeze_zero_norm (fun p => ?_) t0
        split_ifs
        · exact le_rfl
        · simp
  · have ev : (fun p : ℝ × ℝ => if p.2 < p.1 then orificeRaw g Ao Co p.1 p.2 u { o with unidir := false } else 0)
        =ᶠ[nhds (x, y)] fun p => orificeRaw g Ao Co p.1 p.2 u { o with unidir := false } := by
      filter_upwards [(continuousAt_snd (p := ((x, y) : ℝ × ℝ))).eventually_lt continuousAt_fst l] with q hq
      rw [if_pos hq]
    rw [continuousAt_congr ev, two, max_eq_left l.le]
    exact ⟨Or.inr, fun h => h.resolve_left (not_lt.mpr l.le)⟩

/-! ### Pumps -/

theorem pumpHead_continuous (p : Pump) : Continuous fun q : ℝ × ℝ => pumpHead q.1 q.2 p := by
  have e : (fun q : ℝ × ℝ => pumpHead q.1 q.2 p) = fun q => max (min (q.2 - q.1) p.dHmax) p.dHmin := by
    funext q
    unfold pumpHead
    have a : (if q.2 - q.1 > p.dHmax then p.dHmax else q.2 - q.1) = min (q.2 - q.1) p.dHmax := by
      split_ifs with h
      · exact (min_eq_right h.le).symm
      · exact (min_eq_left (not_lt.mp h)).symm
    dsimp only
    rw [a]
    split_ifs with h
    · exact (max_eq_right h.le).symm
    · exact (max_eq_left (not_lt.mp h)).symm
  rw [e]
  fun_prop

/-- **C166 (pumps).** The flow of a running pump is continuous in the heads except where its source stands at the
switching level and the lift is less than the shut-off head. -/
theorem C166_pump_iff {u : ℝ} {p : Pump} (hu : 0 < u) (hb : 0 < p.b) (hc : 0 < p.c) (h1 : p.dHmin ≤ p.a) (h2 : p.dHmax ≤ p.a)
    (q : ℝ × ℝ) :
    ContinuousAt (fun q : ℝ × ℝ => pumpFlow q.1 q.2 u p) q ↔ q.1 ≠ p.z_inv + p.z_p ∨ pumpHead q.1 q.2 p = p.a := by
  have cont : Continuous fun q : ℝ × ℝ => (u / p.b * (p.a - pumpHead q.1 q.2 p)) ^ (1 / p.c) := by
    have := pumpHead_continuous p
    exact (continuous_const.mul (continuous_const.sub this)).rpow_const (fun _ => Or.inr (by positivity))
  have low : ∀ q : ℝ × ℝ, pumpHead q.1 q.2 p ≤ p.a := by
    intro q
    unfold pumpHead
    dsimp only
    split_ifs <;> linarith
  by_cases hq : q.1 = p.z_inv + p.z_p
  · have z : pumpFlow q.1 q.2 u p = 0 := by unfold pumpFlow; rw [if_neg (by rw [hq]; exact lt_irrefl _)]
    constructor
    · intro h
      right
      by_contra hn
      have pos : 0 < (u / p.b * (p.a - pumpHead q.1 q.2 p)) ^ (1 / p.c) :=
        Real.rpow_pos_of_pos (mul_pos (by positivity) (sub_pos.mpr (lt_of_le_of_ne (low q) hn))) _
      set v := (u / p.b * (p.a - pumpHead q.1 q.2 p)) ^ (1 / p.c) with hv
      obtain ⟨δ, δ0, hδ⟩ := Metric.continuousAt_iff.mp h (v / 2) (by linarith)
      obtain ⟨δ', δ0', hδ'⟩ := Metric.continuousAt_iff.mp (cont.continuousAt (x := q)) (v / 2) (by linarith)
      have m0 : 0 < min δ δ' := lt_min δ0 δ0'
      have hd : dist ((q.1 + min δ δ' / 2, q.2) : ℝ × ℝ) q < min δ δ' := by
        rw [Prod.dist_eq, dist_self, Real.dist_eq]
        simp only [add_sub_cancel_left]
        rw [abs_of_pos (by linarith), max_eq_left (by linarith)]; linarith
      have a := hδ (hd.trans_le (min_le_left _ _))
      have b := hδ' (hd.trans_le (min_le_right _ _))
      rw [z] at a
      have on : pumpFlow (q.1 + min δ δ' / 2) q.2 u p
          = (u / p.b * (p.a - pumpHead (q.1 + min δ δ' / 2) q.2 p)) ^ (1 / p.c) := by
        unfold pumpFlow; rw [if_pos (by linarith)]
      dsimp only at a b
      rw [on, Real.dist_eq] at a
      rw [← hv, Real.dist_eq] at b
      linarith [(abs_lt.mp a).2, (abs_lt.mp b).1]
    · rintro (h | h)
      · exact absurd hq h
      · have v0 : (u / p.b * (p.a - pumpHead q.1 q.2 p)) ^ (1 / p.c) = 0 := by
          rw [h, sub_self, mul_zero, Real.zero_rpow (by positivity)]
        have t0 : Filter.Tendsto (fun q : ℝ × ℝ => (u / p.b * (p.a - pumpHead q.1 q.2 p)) ^ (1 / p.c)) (nhds q) (nhds 0) := by
          have := cont.continuousAt (x := q) |>.tendsto
          rwa [v0] at this
        unfold ContinuousAt
        dsimp only
        rw [z]
        refine squeeze_zero_norm (fun q => ?_) t0
        have n : 0 ≤ (u / p.b * (p.a - pumpHead q.1 q.2 p)) ^ (1 / p.c) :=
          Real.rpow_nonneg (mul_nonneg (by positivity) (sub_nonneg.mpr (low q))) _
        unfold pumpFlow
        split_ifs
        · rw [Real.norm_eq_abs, abs_of_nonneg n]
        · simpa using n
  · refine ⟨fun _ => Or.inl hq, fun _ => ?_⟩
    rcases lt_or_gt_of_ne hq with l | l
    · have ev : (fun q : ℝ × ℝ => pumpFlow q.1 q.2 u p) =ᶠ[nhds q] fun _ => 0 := by
        filter_upwards [continuousAt_fst.eventually_lt continuousAt_const l] with r hr
        unfold pumpFlow; rw [if_neg (not_lt.mpr (le_of_lt hr))]
      rw [continuousAt_congr ev]
      exact continuousAt_const
    · have ev : (fun q : ℝ × ℝ => pumpFlow q.1 q.2 u p) =ᶠ[nhds q] fun q => (u / p.b * (p.a - pumpHead q.1 q.2 p)) ^ (1 / p.c) := by
        filter_upwards [continuousAt_const.eventually_lt continuousAt_fst l] with r hr
        unfold pumpFlow; rw [if_pos hr]
      rw [continuousAt_congr ev]
      exact cont.continuousAt

/-! ### Non-vacuity -/

/-- A square orifice of height 1 with its sill at 0: the flow jumps with both waters at 0.5, and with the source
at the crown; it is continuous with a source at 2. -/
example : ¬ ContinuousAt (fun p : ℝ × ℝ => orificeRaw 9.81 1 0.6 p.1 p.2 1 ⟨0, 0, 1, 1, false⟩) (0.5, 0.5) ∧
    ¬ ContinuousAt (fun p : ℝ × ℝ => orificeRaw 9.81 1 0.6 p.1 p.2 1 ⟨0, 0, 1, 1, false⟩) (1, 0) ∧
    ContinuousAt (fun p : ℝ × ℝ => orificeRaw 9.81 1 0.6 p.1 p.2 1 ⟨0, 0, 1, 1, false⟩) (2, 0) := by
  have h := C166_orifice_iff (g := 9.81) (Ao := 1) (Co := 0.6) (u := 1) (o := ⟨0, 0, 1, 1, false⟩) (by norm_num)
    (by norm_num) one_ne_zero (by norm_num [Orifice.opening]) rfl
  refine ⟨?_, ?_, ?_⟩ <;> rw [h] <;> norm_num [Orifice.opening, Orifice.bottom]

/-- A pump which delivers at its switching level jumps there. -/
example : ¬ ContinuousAt (fun q : ℝ × ℝ => pumpFlow q.1 q.2 1 ⟨0.5, 0, 5, 0, 5, 1, 2⟩) (0.5, 3) := by
  rw [C166_pump_iff one_pos one_pos two_pos (by norm_num) (by norm_num)]
  norm_num [pumpHead]

end

end Pipedream.Control
