import Verif.ControlProps

/-!
# C162: orifices under a growing head and through a growing opening

The reported orifice flow (`solve_orifice_flows`, nsuperlink.py 1534–1562 and 2766–2821) as a function of the heads
and of the opening. With the water of the higher side at `Hu`, the lower side at `Hd ≤ Hu`, the sill at `b` and the
crown at `b + t`, the kernel uses as driving head `Hu - max Hd (b + t/2)` above the crown, `Hu - b` between sill and
crown, and zero below the sill.
-/

namespace Pipedream.Control

noncomputable section

/-- Driving head of the law, water flowing forward (specification). -/
def drive (b t Hu Hd : ℝ) : ℝ :=
  if b + t < Hu then Hu - max Hd (b + t / 2) else if b < Hu then Hu - b else 0

theorem drive_nonneg {b t Hu Hd : ℝ} (ht : 0 ≤ t) (h : Hd ≤ Hu) : 0 ≤ drive b t Hu Hd := by
  unfold drive
  split_ifs with h1 h2
  · rcases max_cases Hd (b + t / 2) with ⟨e, _⟩ | ⟨e, _⟩ <;> rw [e] <;> linarith
  · linarith
  · exact le_rfl

/-- The law of the kernel for forward flow. -/
theorem orificeRaw_forward {g Ao Co Hu Hd u : ℝ} {o : Orifice} (hg : 0 ≤ g) (ht : 0 ≤ o.opening u)
    (h : Hd ≤ Hu) (ow : o.unidir = true → Hd < Hu) :
    orificeRaw g Ao Co Hu Hd u o = Real.sqrt (2 * g * Co ^ 2 * Ao ^ 2 * drive o.bottom (o.opening u) Hu Hd) := by
  have dn := drive_nonneg (b := o.bottom) ht h
  have gn : 0 ≤ 2 * g * Co ^ 2 * Ao ^ 2 := by positivity
  obtain ⟨e, hr, he⟩ := orificeCoef_regime ⟨0, 0, 0⟩ (2 * g * Co ^ 2 * Ao ^ 2) Hu Hd u o ht
    fun ⟨a, b⟩ => absurd (ow b) (not_lt.mpr a)
  have hd : e = drive o.bottom (o.opening u) Hu Hd := by
    unfold drive
    cases hr with
    | submerged hi lo =>
      rw [max_eq_left h] at hi; rw [min_eq_right h] at lo
      rw [if_pos hi, max_eq_left lo.le]
    | free_fwd d hi lo => rw [if_pos hi, max_eq_right lo]
    | free_bwd d hi lo => exact absurd h (not_le.mpr d)
    | weir_fwd d hi lo => rw [if_neg (not_lt.mpr hi), if_pos lo]
    | weir_bwd d hi lo => exact absurd h (not_le.mpr d)
    | dry hi =>
      rw [max_eq_left h] at hi
      rw [if_neg (by linarith), if_neg (by linarith)]
  unfold Lin.eval at he
  simp only [orificeRaw, he, hd, abs_of_nonneg (mul_nonneg gn dn), sgn, ge_iff_le, if_pos h, one_mul]

/-- Flow squared over `2 g Co² Ao²` is the driving head. -/
theorem orificeRaw_sq {g Ao Co Hu Hd u : ℝ} {o : Orifice} (hg : 0 ≤ g) (ht : 0 ≤ o.opening u)
    (h : Hd ≤ Hu) (ow : o.unidir = true → Hd < Hu) :
    orificeRaw g Ao Co Hu Hd u o ^ 2 = 2 * g * Co ^ 2 * Ao ^ 2 * drive o.bottom (o.opening u) Hu Hd := by
  rw [orificeRaw_forward hg ht h ow, Real.sq_sqrt]
  exact mul_nonneg (by positivity) (drive_nonneg ht h)

/-- Comparing two flows forward is comparing area squared times driving head. -/
theorem orificeRaw_le_iff {g Ao Ao' Co Hu Hd Hu' Hd' u u' : ℝ} {o : Orifice} (hg : 0 < g) (hC : Co ≠ 0)
    (ht : 0 ≤ o.opening u) (ht' : 0 ≤ o.opening u')
    (h : Hd ≤ Hu) (ow : o.unidir = true → Hd < Hu) (h' : Hd' ≤ Hu') (ow' : o.unidir = true → Hd' < Hu') :
    orificeRaw g Ao Co Hu Hd u o ≤ orificeRaw g Ao' Co Hu' Hd' u' o ↔
      Ao ^ 2 * drive o.bottom (o.opening u) Hu Hd ≤ Ao' ^ 2 * drive o.bottom (o.opening u') Hu' Hd' := by
  rw [orificeRaw_forward hg.le ht h ow, orificeRaw_forward hg.le ht' h' ow',
    Real.sqrt_le_sqrt_iff (mul_nonneg (by positivity) (drive_nonneg ht' h'))]
  have k : 0 < 2 * g * Co ^ 2 := by positivity
  rw [mul_assoc _ (Ao ^ 2), mul_assoc _ (Ao' ^ 2), mul_le_mul_iff_right₀ k]

/-- **C162 (head).** Raising the source within one side of the crown passes no less water. -/
theorem C162_head {g Ao Co Hu Hu' Hd u : ℝ} {o : Orifice} (hg : 0 < g) (hC : Co ≠ 0) (ht : 0 ≤ o.opening u)
    (h : Hd ≤ Hu) (ow : o.unidir = true → Hd < Hu) (up : Hu ≤ Hu')
    (side : Hu' ≤ o.bottom + o.opening u ∨ o.bottom + o.opening u < Hu) :
    orificeRaw g Ao Co Hu Hd u o ≤ orificeRaw g Ao Co Hu' Hd u o := by
  rw [orificeRaw_le_iff hg hC ht ht h ow (h.trans up) fun b => (ow b).trans_le up]
  refine mul_le_mul_of_nonneg_left ?_ (sq_nonneg Ao)
  unfold drive
  rcases side with s | s
  · rw [if_neg (not_lt.mpr (up.trans s)), if_neg (not_lt.mpr s)]
    split_ifs <;> linarith
  · rw [if_pos s, if_pos (by linarith)]
    linarith

/-- **C162 (lower side).** Raising the receiving water, still below the source, passes no more water. -/
theorem C162_lower_side {g Ao Co Hu Hd Hd' u : ℝ} {o : Orifice} (hg : 0 < g) (hC : Co ≠ 0) (ht : 0 ≤ o.opening u)
    (up : Hd ≤ Hd') (h : Hd' ≤ Hu) (ow : o.unidir = true → Hd' < Hu) :
    orificeRaw g Ao Co Hu Hd' u o ≤ orificeRaw g Ao Co Hu Hd u o := by
  rw [orificeRaw_le_iff hg hC ht ht h ow (up.trans h) fun b => up.trans_lt (ow b)]
  refine mul_le_mul_of_nonneg_left ?_ (sq_nonneg Ao)
  unfold drive
  split_ifs
  · linarith [max_le_max_right (o.bottom + o.opening u / 2) up]
  all_goals exact le_rfl

/-- **C162, refuted at the crown.** From a source between sill and crown to one above the crown, an orifice passes no
less water exactly if the source has risen by at least the height of the receiving water, or half the opening, above
the sill. -/
theorem C162_crown_iff {g Ao Co Hu Hu' Hd u : ℝ} {o : Orifice} (hg : 0 < g) (hC : Co ≠ 0) (hA : Ao ≠ 0)
    (ht : 0 ≤ o.opening u) (h : Hd ≤ Hu) (ow : o.unidir = true → Hd < Hu)
    (sill : o.bottom < Hu) (below : Hu ≤ o.bottom + o.opening u) (above : o.bottom + o.opening u < Hu') :
    orificeRaw g Ao Co Hu Hd u o ≤ orificeRaw g Ao Co Hu' Hd u o ↔
      max (Hd - o.bottom) (o.opening u / 2) ≤ Hu' - Hu := by
  have up : Hu ≤ Hu' := below.trans above.le
  have k : 0 < Ao ^ 2 := by positivity
  rw [orificeRaw_le_iff hg hC ht ht h ow (h.trans up) fun b => (ow b).trans_le up, mul_le_mul_iff_right₀ k]
  unfold drive
  rw [if_neg (not_lt.mpr below), if_pos sill, if_pos above]
  have e : max Hd (o.bottom + o.opening u / 2) = max (Hd - o.bottom) (o.opening u / 2) + o.bottom := by
    rw [max_add]; congr 1 <;> ring
  rw [e]
  constructor <;> intro h <;> linarith

/-- **C162, refuted (size of the drop).** A freely discharging orifice: with the source just above the crown half the
square of the flow at the crown is left. -/
theorem C162_crown_jump {g Ao Co Hd u ε : ℝ} {o : Orifice} (hg : 0 ≤ g) (ht : 0 < o.opening u)
    (free : Hd ≤ o.bottom + o.opening u / 2) (hε : 0 < ε) :
    orificeRaw g Ao Co (o.bottom + o.opening u + ε) Hd u o ^ 2
      = orificeRaw g Ao Co (o.bottom + o.opening u) Hd u o ^ 2 / 2 + 2 * g * Co ^ 2 * Ao ^ 2 * ε := by
  rw [orificeRaw_sq hg ht.le (by linarith) (fun _ => by linarith), orificeRaw_sq hg ht.le (by linarith) (fun _ => by linarith)]
  unfold drive
  rw [if_pos (by linarith), if_neg (by linarith), if_pos (by linarith), max_eq_right free]
  ring

/-- **C162 (opening).** An orifice whose area is proportional to its opening passes, at given heads, no less water when
opened further. -/
theorem C162_opening {g a Co Hu Hd u u' : ℝ} {o : Orifice} (hg : 0 < g) (hC : Co ≠ 0) (hT : 0 ≤ o.tau * o.y_max)
    (hu : 0 ≤ u) (more : u ≤ u') (h : Hd ≤ Hu) (ow : o.unidir = true → Hd < Hu) :
    orificeRaw g (a * u) Co Hu Hd u o ≤ orificeRaw g (a * u') Co Hu Hd u' o := by
  have t0 : 0 ≤ o.opening u := mul_nonneg hT hu
  have tt : o.opening u ≤ o.opening u' := mul_le_mul_of_nonneg_left more hT
  rw [orificeRaw_le_iff hg hC t0 (t0.trans tt) h ow h ow, mul_pow, mul_pow, mul_assoc, mul_assoc]
  refine mul_le_mul_of_nonneg_left ?_ (sq_nonneg a)
  have u2 : u ^ 2 ≤ u' ^ 2 := pow_le_pow_left₀ hu more 2
  have d0 := drive_nonneg (b := o.bottom) t0 h
  unfold Orifice.opening at *
  set T := o.tau * o.y_max with hTd
  by_cases s : o.bottom + T * u' < Hu
  · have s1 : o.bottom + T * u < Hu := by linarith
    unfold drive at d0 ⊢
    rw [if_pos s1] at d0 ⊢
    rw [if_pos s]
    -- below the middle of the wider opening the crown matters
    rcases le_total Hd (o.bottom + T * u' / 2) with l | l
    · rw [max_eq_right l]
      refine le_trans (mul_le_mul_of_nonneg_left (sub_le_sub_left (le_max_right _ _) _) (sq_nonneg u)) ?_
      have D : 0 ≤ Hu - o.bottom - T * u' := by linarith
      have k : 0 ≤ (u' - u) * ((u' + u) * (Hu - o.bottom - T * u')) :=
        mul_nonneg (sub_nonneg.mpr more) (mul_nonneg (by linarith) D)
      have k2 : 0 ≤ T * (u' - u) * (u' ^ 2 + u' * u - u ^ 2) := by
        refine mul_nonneg (mul_nonneg hT (sub_nonneg.mpr more)) ?_
        nlinarith [mul_nonneg (hu.trans more) hu]
      nlinarith
    · rw [max_eq_left l]
      refine le_trans (mul_le_mul_of_nonneg_left (sub_le_sub_left (le_max_left _ _) _) (sq_nonneg u)) ?_
      exact mul_le_mul_of_nonneg_right u2 (by linarith)
  · refine le_trans (mul_le_mul_of_nonneg_right u2 d0) (mul_le_mul_of_nonneg_left ?_ (sq_nonneg u'))
    unfold drive
    rw [if_neg s]
    by_cases b : o.bottom < Hu
    · rw [if_pos b]
      split_ifs
      · have := le_max_right Hd (o.bottom + T * u / 2)
        have : 0 ≤ T * u := t0
        linarith
      · exact le_rfl
    · rw [if_neg b, if_neg (by linarith [t0])]

/-- **C162 (reported flow).** The limit by the stored volume keeps the order of flows. -/
theorem C162_limited {Q Q' Hu Hd Hu' Vu Vd dt : ℝ} (h0 : 0 ≤ Q) (h : Q ≤ Q') (hV : 0 ≤ Vu) (hdt : 0 < dt)
    (d : Hd < Hu) (d' : Hd < Hu') :
    orificeLimit Q Hu Hd Vu Vd dt ≤ orificeLimit Q' Hu' Hd Vu Vd dt := by
  unfold orificeLimit npSign
  simp only [gt_iff_lt, d, d', if_true]
  have v : 0 ≤ Vu / dt := by positivity
  rw [abs_of_nonneg h0, abs_of_nonneg (h0.trans h)]
  rcases h0.eq_or_lt with e | e
  · rw [← e]
    simp only [lt_irrefl, if_false, zero_mul]
    have q := h0.trans h
    rcases q.eq_or_lt with e' | e'
    · simp [← e']
    · rw [if_pos e', one_mul]; exact le_min q v
  · rw [if_pos e, if_pos (e.trans_le h), one_mul, one_mul]
    exact min_le_min_right _ h

/-- **C162, refuted.** An orifice of height 1 at the invert of its source, discharging freely: five centimetres more
water above the crown, less reported flow. -/
theorem C162_fuller_tank_discharges_less :
    orificeFlow 9.81 1 0.6 1.05 0 1 100 100 1 ⟨0, 0, 1, 1, false⟩
      < orificeFlow 9.81 1 0.6 1 0 1 100 100 1 ⟨0, 0, 1, 1, false⟩ := by
  have lt : orificeRaw 9.81 1 0.6 1.05 0 1 ⟨0, 0, 1, 1, false⟩ < orificeRaw 9.81 1 0.6 1 0 1 ⟨0, 0, 1, 1, false⟩ := by
    rw [← not_le, C162_crown_iff (by norm_num) (by norm_num) (by norm_num) (by norm_num [Orifice.opening])
      (by norm_num) (fun h => by simp at h) (by norm_num [Orifice.bottom])
      (by norm_num [Orifice.bottom, Orifice.opening]) (by norm_num [Orifice.bottom, Orifice.opening])]
    norm_num [Orifice.bottom, Orifice.opening]
  have s1 := orificeRaw_sq (g := 9.81) (Ao := 1) (Co := 0.6) (Hu := 1) (Hd := 0) (u := 1) (o := ⟨0, 0, 1, 1, false⟩)
    (by norm_num) (by norm_num [Orifice.opening]) (by norm_num) (fun h => by simp at h)
  have r0 : 0 ≤ orificeRaw 9.81 1 0.6 1.05 0 1 ⟨0, 0, 1, 1, false⟩ := by
    rw [orificeRaw_forward (by norm_num) (by norm_num [Orifice.opening]) (by norm_num) (fun h => by simp at h)]
    exact Real.sqrt_nonneg _
  have r1 := r0.trans lt.le
  have small : orificeRaw 9.81 1 0.6 1 0 1 ⟨0, 0, 1, 1, false⟩ ≤ 100 := by
    refine abs_le_of_sq_le_sq' ?_ (by norm_num) |>.2
    rw [s1]; norm_num [drive, Orifice.bottom, Orifice.opening]
  have key : ∀ {Q H : ℝ}, 0 ≤ Q → Q ≤ 100 → 0 < H → orificeLimit Q H 0 100 100 1 = Q := by
    intro Q H h0 h1 hH
    unfold orificeLimit npSign
    simp only [gt_iff_lt, hH, if_true, div_one, abs_of_nonneg h0, min_eq_left h1]
    rcases h0.eq_or_lt with e | e
    · simp [← e]
    · simp [e]
  unfold orificeFlow
  rw [key r0 (lt.le.trans small) (by norm_num), key r1 small (by norm_num)]
  exact lt

/-- The hypotheses of `C162_crown_iff` on a real orifice, and a rise large enough. -/
example : orificeRaw 9.81 1 0.6 1 0 1 ⟨0, 0, 1, 1, false⟩ ≤ orificeRaw 9.81 1 0.6 1.5 0 1 ⟨0, 0, 1, 1, false⟩ := by
  rw [C162_crown_iff (by norm_num) (by norm_num) (by norm_num) (by norm_num [Orifice.opening])
    (by norm_num) (fun h => by simp at h) (by norm_num [Orifice.bottom])
    (by norm_num [Orifice.bottom, Orifice.opening]) (by norm_num [Orifice.bottom, Orifice.opening])]
  norm_num [Orifice.bottom, Orifice.opening]

end

end Pipedream.Control
