import Verif.ControlContinuityProps
import Verif.ControlGapProps

/-!
# Control flows in the order of the heads

Weirs, pumps and orifices (on either side of the crown) pass no less when the upstream head is higher and the
downstream head lower, and more if the head of the side they drain is higher.
-/

namespace Pipedream.Control

noncomputable section

/-! ### Weirs -/

theorem weirLaw_pos {w : Weir} {d : ℝ} (hd : 0 ≤ d) (hL : 0 ≤ w.Cwr * w.L) (hs : 0 ≤ w.Cwt * w.s) :
    weirLaw w d = (w.Cwr * w.L * d + w.Cwt * w.s * d ^ 2) * Real.sqrt d := by
  rw [weirLaw, if_pos hd, abs_of_nonneg hd, weirConv, Real.sqrt_mul (sq_nonneg _), Real.sqrt_sq (by positivity)]

theorem weirLaw_odd (w : Weir) (d : ℝ) : weirLaw w (-d) = -weirLaw w d := by
  unfold weirLaw
  rw [abs_neg]
  rcases lt_trichotomy d 0 with h | h | h
  · rw [if_pos (by linarith), if_neg (by linarith), neg_neg]
  · subst h; simp
  · rw [if_neg (by linarith), if_pos h.le]

theorem weirLaw_mono_pos {w : Weir} (hL : 0 ≤ w.Cwr * w.L) (hs : 0 ≤ w.Cwt * w.s) {d d' : ℝ} (h0 : 0 ≤ d) (h : d ≤ d') :
    weirLaw w d ≤ weirLaw w d' := by
  rw [weirLaw_pos h0 hL hs, weirLaw_pos (h0.trans h) hL hs]
  have := h0.trans h
  gcongr

theorem weirLaw_strict_pos {w : Weir} (hL : 0 ≤ w.Cwr * w.L) (hs : 0 ≤ w.Cwt * w.s) {d d' : ℝ} (h0 : 0 ≤ d) (h : d < d')
    (hp : 0 < weirLaw w d') : weirLaw w d < weirLaw w d' := by
  have h1 := h0.trans h.le
  rw [weirLaw_pos h1 hL hs] at hp ⊢
  rw [weirLaw_pos h0 hL hs]
  have sq : Real.sqrt d < Real.sqrt d' := Real.sqrt_lt_sqrt h0 h
  have sp : 0 < Real.sqrt d' := lt_of_le_of_lt (Real.sqrt_nonneg d) sq
  have X : 0 < w.Cwr * w.L * d' + w.Cwt * w.s * d' ^ 2 := by
    by_contra hn
    have := mul_nonpos_of_nonpos_of_nonneg (not_lt.mp hn) sp.le
    linarith
  refine lt_of_le_of_lt ?_ (mul_lt_mul_of_pos_left sq X)
  gcongr

theorem weirLaw_nonneg {w : Weir} {d : ℝ} (h : 0 ≤ d) : 0 ≤ weirLaw w d := by
  rw [weirLaw, if_pos h]; exact Real.sqrt_nonneg _

theorem weirLaw_nonpos {w : Weir} {d : ℝ} (h : d ≤ 0) : weirLaw w d ≤ 0 := by
  have := weirLaw_nonneg (w := w) (d := -d) (by linarith)
  rw [weirLaw_odd] at this; linarith

theorem weirLaw_mono {w : Weir} (hL : 0 ≤ w.Cwr * w.L) (hs : 0 ≤ w.Cwt * w.s) : Monotone (weirLaw w) := by
  intro d d' h
  rcases le_total 0 d with h0 | h0
  · exact weirLaw_mono_pos hL hs h0 h
  · rcases le_total 0 d' with h1 | h1
    · exact (weirLaw_nonpos h0).trans (weirLaw_nonneg h1)
    · have := weirLaw_mono_pos (w := w) hL hs (d := -d') (d' := -d) (by linarith) (by linarith)
      rw [weirLaw_odd, weirLaw_odd] at this; linarith

theorem weirLaw_strict {w : Weir} (hL : 0 ≤ w.Cwr * w.L) (hs : 0 ≤ w.Cwt * w.s) {d d' : ℝ} (h : d < d') :
    (0 < weirLaw w d' → weirLaw w d < weirLaw w d') ∧ (weirLaw w d < 0 → weirLaw w d < weirLaw w d') := by
  have up : ∀ {d d' : ℝ}, d < d' → 0 < weirLaw w d' → weirLaw w d < weirLaw w d' := by
    intro d d' h hp
    rcases le_or_gt 0 d with h0 | h0
    · exact weirLaw_strict_pos hL hs h0 h hp
    · exact lt_of_le_of_lt (weirLaw_nonpos h0.le) hp
  refine ⟨up h, fun hn => ?_⟩
  have := up (d := -d') (d' := -d) (by linarith) (by rw [weirLaw_odd]; linarith)
  rw [weirLaw_odd, weirLaw_odd] at this; linarith

theorem weir_mono {w : Weir} (hL : 0 ≤ w.Cwr * w.L) (hs : 0 ≤ w.Cwt * w.s) {Hu Hd Hu' Hd' u : ℝ} (hu : Hu ≤ Hu')
    (hd : Hd' ≤ Hd) : weirFlow Hu Hd u w ≤ weirFlow Hu' Hd' u w := by
  rw [weirFlow_law, weirFlow_law]
  exact weirLaw_mono hL hs (sub_le_sub (max_le_max_right _ hu) (max_le_max_right _ hd))

/-- A weir that drains its upstream side passes more when that side is higher. -/
theorem weir_strict_up {w : Weir} (hL : 0 ≤ w.Cwr * w.L) (hs : 0 ≤ w.Cwt * w.s) {Hu Hd Hu' Hd' u : ℝ} (hu : Hu < Hu')
    (hd : Hd' ≤ Hd) (hp : 0 < weirFlow Hu' Hd' u w) : weirFlow Hu Hd u w < weirFlow Hu' Hd' u w := by
  rw [weirFlow_law] at hp ⊢
  rw [weirFlow_law]
  have hc : w.crest u < Hu' := by
    by_contra hn
    have : max Hu' (w.crest u) - max Hd' (w.crest u) ≤ 0 := by
      rw [max_eq_right (not_lt.mp hn)]; linarith [le_max_right Hd' (w.crest u)]
    exact absurd hp (not_lt.mpr (weirLaw_nonpos this))
  have a : max Hu (w.crest u) < max Hu' (w.crest u) := by rw [max_eq_left hc.le]; exact max_lt hu hc
  have b := max_le_max_right (w.crest u) hd
  exact (weirLaw_strict hL hs (by linarith)).1 hp

/-- A weir that drains its downstream side passes more backwards when that side is higher. -/
theorem weir_strict_down {w : Weir} (hL : 0 ≤ w.Cwr * w.L) (hs : 0 ≤ w.Cwt * w.s) {Hu Hd Hu' Hd' u : ℝ} (hu : Hu ≤ Hu')
    (hd : Hd' < Hd) (hn : weirFlow Hu Hd u w < 0) : weirFlow Hu Hd u w < weirFlow Hu' Hd' u w := by
  rw [weirFlow_law] at hn ⊢
  rw [weirFlow_law]
  have hc : w.crest u < Hd := by
    by_contra hc
    have : 0 ≤ max Hu (w.crest u) - max Hd (w.crest u) := by
      rw [max_eq_right (not_lt.mp hc)]; linarith [le_max_right Hu (w.crest u)]
    exact absurd hn (not_lt.mpr (weirLaw_nonneg this))
  have a : max Hd' (w.crest u) < max Hd (w.crest u) := by rw [max_eq_left hc.le]; exact max_lt hd hc
  have b := max_le_max_right (w.crest u) hu
  exact (weirLaw_strict hL hs (by linarith)).2 hn

/-! ### Pumps -/

theorem pump_mono {p : Pump} (v : p.Valid) {u : ℝ} (h0 : 0 ≤ u) {Hu Hd Hu' Hd' : ℝ} (hu : Hu ≤ Hu') (hd : Hd' ≤ Hd) :
    pumpFlow Hu Hd u p ≤ pumpFlow Hu' Hd' u p :=
  ((C26_pump v h0 Hu Hd').2.2.1 Hd hd).trans ((C26_pump v h0 Hu Hd').2.2.2 Hu' hu)

/-- A pump which runs at a lift between its limits passes more when its source is higher. -/
theorem pump_strict {p : Pump} (v : p.Valid) {u : ℝ} (h0 : 0 ≤ u) {Hu Hd Hu' Hd' : ℝ} (hu : Hu < Hu') (hd : Hd' ≤ Hd)
    (lo : p.dHmin ≤ Hd' - Hu') (hi : Hd' - Hu' < p.dHmax) (hp : 0 < pumpFlow Hu' Hd' u p) :
    pumpFlow Hu Hd u p < pumpFlow Hu' Hd' u p := by
  have cu : Hu' > p.z_inv + p.z_p := by
    by_contra hn
    rw [pumpFlow, if_neg hn] at hp
    exact lt_irrefl _ hp
  by_cases c : Hu > p.z_inv + p.z_p
  · have u0 : 0 < u := by
      rcases h0.eq_or_lt with e | l
      · subst e
        rw [pumpFlow, if_pos cu, zero_div, zero_mul, Real.zero_rpow (one_div_ne_zero v.c_pos.ne')] at hp
        exact absurd hp (lt_irrefl _)
      · exact l
    rw [pumpFlow, if_pos c, pumpFlow, if_pos cu]
    refine Real.rpow_lt_rpow (pump_base_nonneg v h0 Hu Hd) ?_ (one_div_pos.mpr v.c_pos)
    refine mul_lt_mul_of_pos_left ?_ (div_pos u0 v.b_pos)
    rw [pumpHead_eq v, pumpHead_eq v, min_eq_left hi.le, max_eq_right lo]
    have : Hd' - Hu' < min (Hd - Hu) p.dHmax := lt_min (by linarith) hi
    linarith [le_max_right p.dHmin (min (Hd - Hu) p.dHmax)]
  · rw [pumpFlow, if_neg c]; exact hp

/-! ### Orifices -/

theorem drive_mono {b t Hu Hd Hu' Hd' : ℝ} (hu : Hu ≤ Hu') (hd : Hd' ≤ Hd)
    (side : b + t < Hu ↔ b + t < Hu') : drive b t Hu Hd ≤ drive b t Hu' Hd' := by
  unfold drive
  by_cases s : b + t < Hu
  · rw [if_pos s, if_pos (side.mp s)]
    linarith [max_le_max_right (b + t / 2) hd]
  · rw [if_neg s, if_neg fun h => s (side.mpr h)]
    split_ifs <;> linarith

theorem drive_strict {b t Hu Hd Hu' Hd' : ℝ} (hu : Hu < Hu') (hd : Hd' ≤ Hd)
    (side : b + t < Hu ↔ b + t < Hu') (hp : 0 < drive b t Hu' Hd') : drive b t Hu Hd < drive b t Hu' Hd' := by
  unfold drive at hp ⊢
  by_cases s : b + t < Hu
  · rw [if_pos s, if_pos (side.mp s)]
    linarith [max_le_max_right (b + t / 2) hd]
  · have s' : ¬ b + t < Hu' := fun h => s (side.mpr h)
    rw [if_neg s'] at hp
    rw [if_neg s, if_neg s']
    have c : b < Hu' := by
      by_contra hn
      rw [if_neg hn] at hp; exact lt_irrefl _ hp
    rw [if_pos c]
    split_ifs <;> linarith

variable {g Ao Co u : ℝ} {o : Orifice} {Hu Hd Hu' Hd' : ℝ}

theorem orificeRaw_back (hg : 0 ≤ g) (ht : 0 ≤ o.opening u) (h : Hu < Hd) :
    orificeRaw g Ao Co Hu Hd u o
      = if o.unidir = true then 0 else -Real.sqrt (2 * g * Co ^ 2 * Ao ^ 2 * drive o.bottom (o.opening u) Hd Hu) := by
  split_ifs with one
  · rw [orificeRaw_oneway hg ht one, if_neg (not_lt.mpr h.le)]
  · rw [orificeRaw_law hg ht (by simpa using one), sgn, if_neg (not_le.mpr h), max_eq_right h.le, min_eq_left h.le]; ring

theorem orificeRaw_nonneg (hg : 0 ≤ g) (ht : 0 ≤ o.opening u) (h : Hd ≤ Hu) : 0 ≤ orificeRaw g Ao Co Hu Hd u o := by
  by_cases one : o.unidir = true
  · rcases h.eq_or_lt with e | l
    · rw [orificeRaw_oneway hg ht one, if_neg (not_lt.mpr e.ge)]
    · rw [orificeRaw_forward hg ht h fun _ => l]; exact Real.sqrt_nonneg _
  · rw [orificeRaw_forward hg ht h (fun e => absurd e one)]; exact Real.sqrt_nonneg _

theorem orificeRaw_nonpos (hg : 0 ≤ g) (ht : 0 ≤ o.opening u) (h : Hu < Hd) : orificeRaw g Ao Co Hu Hd u o ≤ 0 := by
  rw [orificeRaw_back hg ht h]
  split_ifs
  · exact le_rfl
  · exact neg_nonpos.mpr (Real.sqrt_nonneg _)

theorem orifice_mono (hg : 0 ≤ g) (ht : 0 ≤ o.opening u) (hu : Hu ≤ Hu') (hd : Hd' ≤ Hd)
    (side : o.bottom + o.opening u < max Hu Hd ↔ o.bottom + o.opening u < max Hu' Hd') :
    orificeRaw g Ao Co Hu Hd u o ≤ orificeRaw g Ao Co Hu' Hd' u o := by
  have K : 0 ≤ 2 * g * Co ^ 2 * Ao ^ 2 := by positivity
  rcases le_or_gt Hd Hu with h | h
  · have h' : Hd' ≤ Hu' := by linarith
    rw [max_eq_left h, max_eq_left h'] at side
    by_cases st : o.unidir = true → Hd < Hu
    · rw [orificeRaw_forward hg ht h st, orificeRaw_forward hg ht h' fun e => by linarith [st e]]
      exact Real.sqrt_le_sqrt (mul_le_mul_of_nonneg_left (drive_mono hu hd side) K)
    · push Not at st
      rw [orificeRaw_oneway hg ht st.1, if_neg (not_lt.mpr st.2)]
      exact orificeRaw_nonneg hg ht h'
  · rcases le_or_gt Hd' Hu' with h' | h'
    · exact (orificeRaw_nonpos hg ht h).trans (orificeRaw_nonneg hg ht h')
    · rw [max_eq_right h.le, max_eq_right h'.le] at side
      rw [orificeRaw_back hg ht h, orificeRaw_back hg ht h']
      split_ifs
      · exact le_rfl
      · exact neg_le_neg (Real.sqrt_le_sqrt (mul_le_mul_of_nonneg_left (drive_mono hd hu side.symm) K))

/-- An orifice that drains its upstream side passes more when that side is higher. -/
theorem orifice_strict_up (hg : 0 ≤ g) (ht : 0 ≤ o.opening u) (hu : Hu < Hu') (hd : Hd' ≤ Hd)
    (side : o.bottom + o.opening u < max Hu Hd ↔ o.bottom + o.opening u < max Hu' Hd')
    (hp : 0 < orificeRaw g Ao Co Hu' Hd' u o) : orificeRaw g Ao Co Hu Hd u o < orificeRaw g Ao Co Hu' Hd' u o := by
  have K : 0 ≤ 2 * g * Co ^ 2 * Ao ^ 2 := by positivity
  rcases le_or_gt Hd Hu with h | h
  · have h' : Hd' < Hu' := by linarith
    rw [max_eq_left h, max_eq_left h'.le] at side
    rw [orificeRaw_forward hg ht h'.le fun _ => h'] at hp ⊢
    by_cases st : o.unidir = true → Hd < Hu
    · rw [orificeRaw_forward hg ht h st]
      have kd := Real.sqrt_pos.mp hp
      have K' : 0 < 2 * g * Co ^ 2 * Ao ^ 2 := by
        rcases K.eq_or_lt with e | l
        · rw [← e, zero_mul] at kd; exact absurd kd (lt_irrefl _)
        · exact l
      have d0 := pos_of_mul_pos_right kd K
      exact Real.sqrt_lt_sqrt (mul_nonneg K (drive_nonneg ht h)) (mul_lt_mul_of_pos_left (drive_strict hu hd side d0) K')
    · push Not at st
      rw [orificeRaw_oneway hg ht st.1, if_neg (not_lt.mpr st.2)]
      exact hp
  · exact lt_of_le_of_lt (orificeRaw_nonpos hg ht h) hp

/-- An orifice that drains its downstream side passes more backwards when that side is higher. -/
theorem orifice_strict_down (hg : 0 ≤ g) (ht : 0 ≤ o.opening u) (hu : Hu ≤ Hu') (hd : Hd' < Hd)
    (side : o.bottom + o.opening u < max Hu Hd ↔ o.bottom + o.opening u < max Hu' Hd')
    (hn : orificeRaw g Ao Co Hu Hd u o < 0) : orificeRaw g Ao Co Hu Hd u o < orificeRaw g Ao Co Hu' Hd' u o := by
  have K : 0 ≤ 2 * g * Co ^ 2 * Ao ^ 2 := by positivity
  rcases le_or_gt Hd Hu with h | h
  · exact absurd hn (not_lt.mpr (orificeRaw_nonneg hg ht h))
  rcases le_or_gt Hd' Hu' with h' | h'
  · exact lt_of_lt_of_le hn (orificeRaw_nonneg hg ht h')
  · rw [max_eq_right h.le, max_eq_right h'.le] at side
    rw [orificeRaw_back hg ht h] at hn ⊢
    rw [orificeRaw_back hg ht h']
    split_ifs at hn ⊢
    · exact absurd hn (lt_irrefl _)
    · have kd := Real.sqrt_pos.mp (by linarith)
      have K' : 0 < 2 * g * Co ^ 2 * Ao ^ 2 := by
        rcases K.eq_or_lt with e | l
        · rw [← e, zero_mul] at kd; exact absurd kd (lt_irrefl _)
        · exact l
      have d0 := pos_of_mul_pos_right kd K
      exact neg_lt_neg (Real.sqrt_lt_sqrt (mul_nonneg K (drive_nonneg ht h'.le))
        (mul_lt_mul_of_pos_left (drive_strict hd hu side.symm d0) K'))

end

end Pipedream.Control
