import Mathlib.Topology.Order.IntermediateValue
import Mathlib.Topology.Order.Compact
import Mathlib.Topology.Sequences
import Mathlib.Topology.Order.OrderClosed
import Verif.SettleLemmas

/-!
# The level over a weir of any shape, from step to step

Lemmas for C189. `level b a r` is the next level above the crest, in units of the steady one, where `a` is the volume a step brings
in units of the volume between the crest and the steady level and `b` the share of the steady discharge which passes through the
slanted sides.
-/

namespace Pipedream.Settle

open Filter Topology Set

noncomputable section

/-! ### Maps below a falling curve which is its own inverse -/

/-- Every limit point of a run is the next level after a limit point. -/
theorem limit_point_back {F : ℝ → ℝ} {x : ℕ → ℝ} {lo hi c : ℝ} (step : ∀ n, x (n + 1) = F (x n))
    (box : ∀ n, x n ∈ Icc lo hi) (cont : ContinuousOn F (Icc lo hi)) (hc : MapClusterPt c atTop x) :
    ∃ d, MapClusterPt d atTop x ∧ d ∈ Icc lo hi ∧ F d = c := by
  obtain ⟨φ, hφ, lim⟩ := MapClusterPt.tendsto_subseq hc
  obtain ⟨d, hd, θ, hθ, lim'⟩ := isCompact_Icc.tendsto_subseq (x := fun n => x (φ (n + 1) - 1)) fun n => box _
  have pos : ∀ n, 1 ≤ φ (n + 1) := fun n => (Nat.succ_le_succ (Nat.zero_le n)).trans (hφ.id_le (n + 1))
  refine ⟨d, ?_, hd, ?_⟩
  · have t : Tendsto (fun n => φ (θ n + 1) - 1) atTop atTop := by
      refine tendsto_atTop_mono (fun n => ?_) hθ.tendsto_atTop
      have := hφ.id_le (θ n + 1)
      simp only [id] at this
      omega
    exact lim'.mapClusterPt.of_comp t
  · have a : Tendsto (fun n => F (x (φ (θ n + 1) - 1))) atTop (𝓝 (F d)) := by
      refine (cont d hd).tendsto.comp (tendsto_nhdsWithin_iff.mpr ⟨lim', Eventually.of_forall fun n => box _⟩)
    have b : Tendsto (fun n => x (φ (θ n + 1))) atTop (𝓝 c) :=
      lim.comp ((tendsto_add_atTop_nat 1).comp hθ.tendsto_atTop)
    refine tendsto_nhds_unique (a.congr fun n => ?_) b
    rw [← step, Nat.sub_add_cancel (pos _)]

/-- If a map raises what is below 1 and lowers what is above, and does so by less than a falling symmetric relation `g` allows,
its runs converge to 1. -/
theorem enveloped {F : ℝ → ℝ} {g : ℝ → ℝ → ℝ} {x : ℕ → ℝ} {lo hi : ℝ} (l0 : 0 < lo) (step : ∀ n, x (n + 1) = F (x n))
    (box : ∀ n, x n ∈ Icc lo hi) (cont : ContinuousOn F (Icc lo hi)) (fix : F 1 = 1)
    (up : ∀ r, 0 < r → r < 1 → r < F r ∧ g r (F r) < 2) (down : ∀ r, 1 < r → F r < r ∧ 2 < g r (F r))
    (symm : ∀ r s, g r s = g s r) (mono : ∀ r r' s, 0 < r → 0 < s → r ≤ r' → g r s ≤ g r' s) :
    Tendsto x atTop (𝓝 1) := by
  set Ω : Set ℝ := {c | MapClusterPt c atTop x} with hΩ
  have closed : IsClosed Ω := isClosed_setOfPred_clusterPt
  have inBox : ∀ c ∈ Ω, c ∈ Icc lo hi := by
    intro c hc
    obtain ⟨d, -, hd, e⟩ := limit_point_back step box cont hc
    obtain ⟨φ, -, lim⟩ := MapClusterPt.tendsto_subseq hc
    exact isClosed_Icc.mem_of_tendsto lim (Eventually.of_forall fun n => box _)
  have comp : IsCompact Ω := isCompact_Icc.of_isClosed_subset closed inBox
  obtain ⟨c0, -, hc0⟩ := isCompact_Icc.exists_mapClusterPt (f := atTop) (u := x) (by
    rw [le_principal_iff]; exact mem_map.mpr (Eventually.of_forall box))
  have ne : Ω.Nonempty := ⟨c0, hc0⟩
  obtain ⟨S, hS, top⟩ := comp.exists_isGreatest ne
  obtain ⟨I, hI, bot⟩ := comp.exists_isLeast ne
  have IS : I ≤ S := top hI
  have I0 : 0 < I := l0.trans_le (inBox I hI).1
  have S0 : 0 < S := I0.trans_le IS
  -- the greatest limit point comes from below 1, unless it is at most 1
  have a : 1 < S → ∃ c ∈ Ω, c < 1 ∧ g c S < 2 := by
    intro h
    obtain ⟨c, hc, cb, e⟩ := limit_point_back step box cont hS
    have cS := top hc
    rcases lt_trichotomy c 1 with l | l | l
    · exact ⟨c, hc, l, e ▸ (up c (l0.trans_le cb.1) l).2⟩
    · rw [l, fix] at e; linarith
    · have := (down c l).1; linarith
  have b : I < 1 → ∃ d ∈ Ω, 1 < d ∧ 2 < g d I := by
    intro h
    obtain ⟨d, hd, db, e⟩ := limit_point_back step box cont hI
    have dI := bot hd
    rcases lt_trichotomy d 1 with l | l | l
    · have := (up d (l0.trans_le db.1) l).1; linarith
    · rw [l, fix] at e; linarith
    · exact ⟨d, hd, l, e ▸ (down d l).2⟩
  have S1 : S ≤ 1 := by
    by_contra h
    obtain ⟨c, hc, c1, gc⟩ := a (not_le.mp h)
    have Ic := bot hc
    obtain ⟨d, hd, d1, gd⟩ := b (lt_of_le_of_lt Ic c1)
    have dS := top hd
    have h1 := mono I c S I0 S0 Ic
    have h2 := mono d S I (by linarith) I0 dS
    rw [symm] at h1
    linarith
  have I1 : 1 ≤ I := by
    by_contra h
    obtain ⟨d, hd, d1, -⟩ := b (not_le.mp h)
    have := top hd
    linarith
  refine isCompact_Icc.tendsto_nhds_of_unique_mapClusterPt (Eventually.of_forall box) fun c _ hc => ?_
  have := top hc
  have := bot hc
  linarith

/-! ### The level over a weir -/

/-- Discharge per level, in units of the steady one. -/
def per (b r : ℝ) : ℝ := (1 - b + b * r) * Real.sqrt r

def level (b a r : ℝ) : ℝ := (r + a) / (1 + a * per b r)

variable {a b : ℝ}

theorem per_pos (b0 : 0 ≤ b) (b1 : b ≤ 1) {r : ℝ} (hr : 0 < r) : 0 < per b r := by
  have : 0 < 1 - b + b * r := by
    rcases b0.eq_or_lt with e | h
    · rw [← e]; norm_num
    · have := mul_pos h hr; linarith
  exact mul_pos this (Real.sqrt_pos.mpr hr)

theorem per_mono (b0 : 0 ≤ b) (b1 : b ≤ 1) {r r' : ℝ} (hr : 0 ≤ r) (h : r ≤ r') : per b r ≤ per b r' := by
  have : 0 ≤ 1 - b := by linarith
  have := hr.trans h
  unfold per
  gcongr

theorem per_one : per b 1 = 1 := by simp [per]

theorem per_continuous : Continuous (per b) := by unfold per; fun_prop

theorem level_pos (ha : 0 < a) (b0 : 0 ≤ b) (b1 : b ≤ 1) {r : ℝ} (hr : 0 < r) : 0 < level b a r := by
  have := per_pos b0 b1 hr
  unfold level; positivity

theorem level_one (ha : 0 < a) : level b a 1 = 1 := by
  unfold level
  rw [per_one, mul_one, div_self (by positivity)]

/-- Levels below the steady one rise, ... -/
theorem level_up (ha : 0 < a) (b0 : 0 ≤ b) (b1 : b ≤ 1) {r : ℝ} (hr : 0 < r) (h : r < 1) : r < level b a r := by
  have p0 := per_pos b0 b1 hr
  have p1 := per_mono b0 b1 hr.le h.le
  rw [per_one] at p1
  unfold level
  rw [lt_div_iff₀ (by positivity)]
  have : r * per b r < 1 := by nlinarith
  nlinarith

/-- ... levels above fall. -/
theorem level_down (ha : 0 < a) (b0 : 0 ≤ b) (b1 : b ≤ 1) {r : ℝ} (h : 1 < r) : level b a r < r := by
  have p0 := per_pos b0 b1 (one_pos.trans h)
  have p1 := per_mono b0 b1 zero_le_one h.le
  rw [per_one] at p1
  unfold level
  rw [div_lt_iff₀ (by positivity)]
  have : 1 < r * per b r := by nlinarith
  nlinarith

/-- The falling symmetric relation. -/
def joint (b r s : ℝ) : ℝ := s * per b r + r * per b s

theorem joint_mono (b0 : 0 ≤ b) (b1 : b ≤ 1) {r r' s : ℝ} (hr : 0 < r) (hs : 0 < s) (h : r ≤ r') :
    joint b r s ≤ joint b r' s := by
  have p := per_mono b0 b1 hr.le h
  have := (per_pos b0 b1 hs).le
  unfold joint
  gcongr

theorem joint_lt (b0 : 0 ≤ b) (b1 : b ≤ 1) {r s s' : ℝ} (hr : 0 < r) (hs : 0 < s) (h : s < s') :
    joint b r s < joint b r s' := by
  have p := per_mono b0 b1 hs.le h.le
  have := per_pos b0 b1 hr
  have a1 := mul_lt_mul_of_pos_right h this
  have a2 := mul_le_mul_of_nonneg_left p hr.le
  unfold joint
  linarith

theorem joint_exists (b0 : 0 ≤ b) (b1 : b ≤ 1) {r : ℝ} (hr : 0 < r) : ∃ s, 0 < s ∧ joint b r s = 2 := by
  have p := per_pos b0 b1 hr
  have c : Continuous (joint b r) := by
    have := per_continuous (b := b)
    unfold joint; fun_prop
  have lo : joint b r 0 = 0 := by simp [joint, per]
  have hi : 2 ≤ joint b r (2 / per b r) := by
    have := per_pos b0 b1 (show 0 < 2 / per b r by positivity)
    have e : 2 / per b r * per b r = 2 := by field_simp
    unfold joint
    rw [e]
    have := mul_pos hr this
    linarith
  obtain ⟨s, hs, e⟩ := intermediate_value_Icc (show (0 : ℝ) ≤ 2 / per b r by positivity) c.continuousOn
    (show (2 : ℝ) ∈ Icc (joint b r 0) (joint b r (2 / per b r)) from ⟨by rw [lo]; norm_num, hi⟩)
  refine ⟨s, lt_of_le_of_ne hs.1 fun h => ?_, e⟩
  rw [← h, lo] at e
  norm_num at e

/-- The condition on the step. -/
theorem cross (ha : 0 < a) (b0 : 0 ≤ b) (small : a * (2 * b - 1) ≤ 4) {ρ σ : ℝ} (hρ : 0 < ρ) (hσ : 0 < σ)
    (ne : ρ ≠ σ) (h : ρ * σ * (ρ + σ) * (1 - b + b * (ρ * σ)) = 2) :
    a * (ρ * σ) * (b * (ρ * σ) - (1 - b)) < 2 * (ρ + σ) := by
  have p0 : 0 < ρ * σ := mul_pos hρ hσ
  have t0 : 0 < ρ + σ := by linarith
  have tp : 4 * (ρ * σ) < (ρ + σ) * (ρ + σ) := by nlinarith [mul_self_pos.mpr (sub_ne_zero.mpr ne)]
  generalize ρ * σ = p at *
  generalize ρ + σ = t at *
  have p1 : p < 1 := by
    by_contra hp
    push Not at hp
    have t2 : 2 < t := by nlinarith
    have k : 1 ≤ 1 - b + b * p := by nlinarith
    have : 2 < p * t := by nlinarith
    nlinarith
  have tp2 : 2 * p < t := by nlinarith
  rcases le_or_gt (b * p - (1 - b)) 0 with n | n
  · have := mul_nonneg (mul_pos ha p0).le (neg_nonneg.mpr n)
    nlinarith
  · have k : b * p - (1 - b) ≤ 2 * b - 1 := by nlinarith
    have := mul_le_mul_of_nonneg_left k (mul_pos ha p0).le
    have := mul_le_mul_of_nonneg_left small p0.le
    nlinarith

theorem below_curve (ha : 0 < a) (b0 : 0 ≤ b) (b1 : b ≤ 1) (small : a * (2 * b - 1) ≤ 4) {r s : ℝ} (hr : 0 < r) (hs : 0 < s)
    (h : joint b r s = 2) : (r < s → level b a r < s) ∧ (s < r → s < level b a r) := by
  have p := per_pos b0 b1 hr
  have D : 0 < 1 + a * per b r := by positivity
  have eρ := Real.mul_self_sqrt hr.le
  have eσ := Real.mul_self_sqrt hs.le
  have hρ := Real.sqrt_pos.mpr hr
  have hσ := Real.sqrt_pos.mpr hs
  unfold level
  rw [div_lt_iff₀ D, lt_div_iff₀ D]
  unfold joint per at h
  unfold per
  generalize Real.sqrt r = ρ at *
  generalize Real.sqrt s = σ at *
  subst eρ eσ
  have h' : ρ * σ * (ρ + σ) * (1 - b + b * (ρ * σ)) = 2 := by rw [← h]; ring
  have key := fun ne => cross ha b0 small hρ hσ ne h'
  have id : 2 * (1 - σ * σ * ((1 - b + b * (ρ * ρ)) * ρ)) = ρ * σ * (σ - ρ) * (b * (ρ * σ) - (1 - b)) := by
    linear_combination (-1) * h'
  constructor
  · intro lt
    have lt : ρ < σ := by nlinarith
    have := mul_lt_mul_of_pos_right (key lt.ne) (sub_pos.mpr lt)
    nlinarith
  · intro lt
    have lt : σ < ρ := by nlinarith
    have := mul_lt_mul_of_pos_right (key lt.ne') (sub_pos.mpr lt)
    nlinarith

/-- **Settling.** Whatever the first level, the run converges to the steady level if `a (2 b - 1) ≤ 4`. -/
theorem level_tendsto (ha : 0 < a) (b0 : 0 ≤ b) (b1 : b ≤ 1) (small : a * (2 * b - 1) ≤ 4) {x : ℕ → ℝ} (h0 : 0 < x 0)
    (step : ∀ n, 0 < x n → x (n + 1) = level b a (x n)) : Tendsto x atTop (𝓝 1) := by
  have pos : ∀ n, 0 < x n := by
    intro n
    induction n with
    | zero => exact h0
    | succ n ih => rw [step n ih]; exact level_pos ha b0 b1 ih
  have stp : ∀ n, x (n + 1) = level b a (x n) := fun n => step n (pos n)
  set hi := max (x 0) (1 + a) with hhi
  have up : ∀ n, x n ≤ hi := by
    intro n
    induction n with
    | zero => exact le_max_left _ _
    | succ n ih =>
      rw [stp]
      rcases le_or_gt (x n) 1 with h | h
      · have p := per_pos b0 b1 (pos n)
        have : level b a (x n) ≤ x n + a := by
          unfold level
          exact div_le_self (by have := pos n; linarith) (by have := mul_pos ha p; linarith)
        exact this.trans ((by linarith : x n + a ≤ 1 + a).trans (le_max_right _ _))
      · exact (level_down ha b0 b1 h).le.trans ih
  have hi0 : 0 < hi := (pos 0).trans_le (up 0)
  have ph := per_pos b0 b1 hi0
  set lo := min (x 0) (a / (1 + a * per b hi)) with hlo
  have lo0 : 0 < lo := lt_min h0 (by positivity)
  have low : ∀ n, lo ≤ x n := by
    intro n
    induction n with
    | zero => exact min_le_left _ _
    | succ n ih =>
      rw [stp]
      rcases lt_or_ge (x n) 1 with h | h
      · exact ih.trans (level_up ha b0 b1 (pos n) h).le
      · have p := per_pos b0 b1 (pos n)
        have pm := per_mono b0 b1 (pos n).le (up n)
        have : a / (1 + a * per b hi) ≤ level b a (x n) := by
          unfold level
          have := pos n
          gcongr
          linarith
        exact (min_le_right _ _).trans this
  have cont : ContinuousOn (level b a) (Icc lo hi) := by
    have := per_continuous (b := b)
    unfold level
    refine ContinuousOn.div (by fun_prop) (by fun_prop) fun r hr => ?_
    have := per_pos b0 b1 (lo0.trans_le hr.1)
    positivity
  refine enveloped (g := joint b) lo0 stp (fun n => ⟨low n, up n⟩) cont (level_one ha) (fun r hr h => ?_) (fun r h => ?_)
    (fun r s => by unfold joint; ring) fun r r' s hr hs h => joint_mono b0 b1 hr hs h
  · obtain ⟨s, hs, e⟩ := joint_exists b0 b1 hr
    refine ⟨level_up ha b0 b1 hr h, e ▸ joint_lt b0 b1 hr (level_pos ha b0 b1 hr) ((below_curve ha b0 b1 small hr hs e).1 ?_)⟩
    by_contra hn
    push Not at hn
    have p := per_mono b0 b1 hr.le h.le
    have p' := per_mono b0 b1 hs.le (hn.trans h.le)
    rw [per_one] at p p'
    have := per_pos b0 b1 hr
    have := per_pos b0 b1 hs
    unfold joint at e
    nlinarith
  · have hr : 0 < r := by linarith
    obtain ⟨s, hs, e⟩ := joint_exists b0 b1 hr
    refine ⟨level_down ha b0 b1 h, e ▸ joint_lt b0 b1 hr hs ((below_curve ha b0 b1 small hr hs e).2 ?_)⟩
    by_contra hn
    push Not at hn
    have p := per_mono b0 b1 zero_le_one h.le
    have p' := per_mono b0 b1 zero_le_one (h.le.trans hn)
    rw [per_one] at p p'
    unfold joint at e
    nlinarith

/-! ### Larger steps -/

theorem level_fixed (ha : 0 < a) (b0 : 0 ≤ b) (b1 : b ≤ 1) {r : ℝ} (hr : 0 < r) : level b a r = r ↔ r = 1 := by
  constructor
  · intro h
    rcases lt_trichotomy r 1 with l | l | l
    · exact absurd h (level_up ha b0 b1 hr l).ne'
    · exact l
    · exact absurd h (level_down ha b0 b1 l).ne
  · rintro rfl; exact level_one ha

theorem level_deriv (ha : 0 < a) : HasDerivAt (level b a) ((1 - (1 / 2 + b) * a) / (1 + a)) 1 := by
  have hs : HasDerivAt Real.sqrt (1 / 2) 1 := by
    have := Real.hasDerivAt_sqrt (x := 1) one_ne_zero
    rwa [Real.sqrt_one, mul_one] at this
  have num : HasDerivAt (fun r : ℝ => r + a) 1 1 := (hasDerivAt_id 1).add_const a
  have lin : HasDerivAt (fun r : ℝ => 1 - b + b * r) b 1 := by
    have := ((hasDerivAt_id (1 : ℝ)).const_mul b).const_add (1 - b)
    rwa [mul_one] at this
  have den : HasDerivAt (fun r : ℝ => 1 + a * per b r) (a * (b + 1 / 2)) 1 := by
    have h := ((lin.mul hs).const_mul a).const_add 1
    rw [show a * (b + 1 / 2) = a * (b * Real.sqrt 1 + (1 - b + b * 1) * (1 / 2)) by rw [Real.sqrt_one]; ring]
    exact h
  have h := num.div den (by rw [per_one]; positivity)
  have e : (1 - (1 / 2 + b) * a) / (1 + a)
      = (1 * (1 + a * per b 1) - (1 + a) * (a * (b + 1 / 2))) / (1 + a * per b 1) ^ 2 := by
    have : 1 + a ≠ 0 := by positivity
    rw [per_one]
    field_simp
    ring
  rw [e]
  exact h

theorem level_repels (ha : 0 < a) (large : 4 < a * (2 * b - 1)) : ∀ᶠ r in 𝓝[≠] (1 : ℝ), |r - 1| < |level b a r - 1| := by
  have h := (hasDerivAt_iff_tendsto_slope.mp (level_deriv (b := b) ha))
  have big : 1 < |(1 - (1 / 2 + b) * a) / (1 + a)| := by
    rw [abs_div, abs_of_pos (show 0 < 1 + a by linarith), abs_of_neg (by linarith), lt_div_iff₀ (by linarith)]
    linarith
  have ev := h.abs.eventually (lt_mem_nhds big)
  filter_upwards [ev, self_mem_nhdsWithin] with r hr ne
  rw [slope_def_field, level_one ha, abs_div, lt_div_iff₀ (abs_pos.mpr (sub_ne_zero.mpr ne)), one_mul] at hr
  exact hr

/-- The steady level is reached from no other. -/
theorem level_back (ha : 0 < a) (b0 : 0 ≤ b) (b1 : b ≤ 1) (large : 4 < a * (2 * b - 1)) {r : ℝ} (hr : 0 < r)
    (h : level b a r = 1) : r = 1 := by
  have p := per_pos b0 b1 hr
  have D : 0 < 1 + a * per b r := by positivity
  unfold level at h
  rw [div_eq_iff D.ne', one_mul] at h
  unfold per at h
  have t0 : 0 < Real.sqrt r := Real.sqrt_pos.mpr hr
  have tt : Real.sqrt r * Real.sqrt r = r := Real.mul_self_sqrt hr.le
  generalize Real.sqrt r = t at *
  subst tt
  have e : (t - 1) * (a * (b * (t * t) + b * t + 1) - (t + 1)) = 0 := by linarith
  rcases mul_eq_zero.mp e with h | h
  · have : t = 1 := by linarith
    rw [this]; norm_num
  · have a4 : 4 < a := by nlinarith
    have ab : 2 < a * b := by nlinarith
    nlinarith [mul_pos t0 t0, mul_lt_mul_of_pos_right ab t0, mul_lt_mul_of_pos_right ab (mul_pos t0 t0)]

/-- With larger steps a run converges only if it is at the steady level throughout. -/
theorem level_const (ha : 0 < a) (b0 : 0 ≤ b) (b1 : b ≤ 1) (large : 4 < a * (2 * b - 1)) {r : ℕ → ℝ} (pos : ∀ n, 0 < r n)
    (step : ∀ n, r (n + 1) = level b a (r n)) {l : ℝ} (lim : Tendsto r atTop (𝓝 l)) : l = 1 ∧ ∀ n, r n = 1 := by
  have l0 : 0 ≤ l := ge_of_tendsto' lim fun n => (pos n).le
  have l1 : l = 1 := by
    have cont : ContinuousAt (level b a) l := by
      have := (per_continuous (b := b)).continuousAt (x := l)
      unfold level
      refine ContinuousAt.div (by fun_prop) (by fun_prop) ?_
      have : 0 ≤ per b l := by
        have := mul_nonneg b0 l0
        unfold per
        exact mul_nonneg (by linarith) (Real.sqrt_nonneg _)
      positivity
    have x : Tendsto (fun n => r (n + 1)) atTop (𝓝 (level b a l)) :=
      (cont.tendsto.comp lim).congr fun n => (step n).symm
    have fx := tendsto_nhds_unique x (lim.comp (tendsto_add_atTop_nat 1))
    rcases l0.eq_or_lt with e | hl
    · rw [← e] at fx
      simp [level, per] at fx
      linarith
    · exact (level_fixed ha b0 b1 hl).mp fx
  subst l1
  refine ⟨rfl, ?_⟩
  have back : ∀ n, r (n + 1) = 1 → r n = 1 := fun n h => level_back ha b0 b1 large (pos n) (by rw [← step]; exact h)
  have forth : ∀ n, r n = 1 → r (n + 1) = 1 := fun n h => by rw [step, h]; exact level_one ha
  have zero : r 0 = 1 := by
    by_contra hn
    have never : ∀ n, r n ≠ 1 := by
      intro n
      induction n with
      | zero => exact hn
      | succ n ih => exact fun h => ih (back n h)
    have lim' : Tendsto r atTop (𝓝[≠] 1) := tendsto_nhdsWithin_iff.mpr ⟨lim, Eventually.of_forall never⟩
    obtain ⟨N, hN⟩ := eventually_atTop.mp (lim'.eventually (level_repels ha large))
    have grow : ∀ n, N ≤ n → |r N - 1| ≤ |r n - 1| := by
      intro n hn
      induction n, hn using Nat.le_induction with
      | base => exact le_rfl
      | succ k hk ih =>
        have := hN k hk
        rw [← step] at this
        exact ih.trans this.le
    have z : Tendsto (fun n => |r n - 1|) atTop (𝓝 0) := by
      have := (lim.sub_const 1).abs
      rwa [sub_self, abs_zero] at this
    have := ge_of_tendsto z (eventually_atTop.mpr ⟨N, grow⟩)
    exact never N (by have := abs_nonpos_iff.mp this; linarith)
  intro n
  induction n with
  | zero => exact zero
  | succ n ih => exact forth n ih

/-! ### The passes of one step -/

/-- The level found by the next pass of a step, in units of the level which solves the equation of the step. -/
def repass (b a r : ℝ) : ℝ := (1 + a) / (1 + a * per b r)

theorem per_strict (b0 : 0 ≤ b) (b1 : b ≤ 1) {r r' : ℝ} (hr : 0 < r) (h : r < r') : per b r < per b r' := by
  have k : 1 - b + b * r ≤ 1 - b + b * r' := by have := mul_le_mul_of_nonneg_left h.le b0; linarith
  have k0 : 0 < 1 - b + b * r := (pos_iff_pos_of_mul_pos (per_pos b0 b1 hr)).mpr (Real.sqrt_pos.mpr hr)
  exact mul_lt_mul' k (Real.sqrt_lt_sqrt hr.le h) (Real.sqrt_nonneg _) (k0.trans_le k)

theorem repass_pos (ha : 0 < a) (b0 : 0 ≤ b) (b1 : b ≤ 1) {r : ℝ} (hr : 0 < r) : 0 < repass b a r := by
  have := per_pos b0 b1 hr
  unfold repass; positivity

theorem repass_one (ha : 0 < a) : repass b a 1 = 1 := by
  unfold repass
  rw [per_one, mul_one, div_self (by positivity)]

theorem repass_above (ha : 0 < a) (b0 : 0 ≤ b) (b1 : b ≤ 1) {r : ℝ} (hr : 0 < r) (h : r < 1) : 1 < repass b a r := by
  have p := per_strict b0 b1 hr h
  have := per_pos b0 b1 hr
  rw [per_one] at p
  unfold repass
  rw [lt_div_iff₀ (by positivity), one_mul]
  have := mul_lt_mul_of_pos_left p ha
  linarith

theorem repass_below (ha : 0 < a) (b0 : 0 ≤ b) (b1 : b ≤ 1) {r : ℝ} (h : 1 < r) : repass b a r < 1 := by
  have p := per_strict b0 b1 one_pos h
  have := per_pos b0 b1 (one_pos.trans h)
  rw [per_one] at p
  unfold repass
  rw [div_lt_iff₀ (by positivity), one_mul]
  have := mul_lt_mul_of_pos_left p ha
  linarith

/-- The falling symmetric relation of the passes. -/
def pair (b a r s : ℝ) : ℝ := (r + s + a * joint b r s) / (1 + a)

theorem pair_mono (ha : 0 < a) (b0 : 0 ≤ b) (b1 : b ≤ 1) {r r' s : ℝ} (hr : 0 < r) (hs : 0 < s) (h : r ≤ r') :
    pair b a r s ≤ pair b a r' s := by
  have := joint_mono b0 b1 hr hs h
  unfold pair
  gcongr

theorem pair_lt (ha : 0 < a) (b0 : 0 ≤ b) (b1 : b ≤ 1) {r s s' : ℝ} (hr : 0 < r) (hs : 0 < s) (h : s < s') :
    pair b a r s < pair b a r s' := by
  have := joint_lt b0 b1 hr hs h
  unfold pair
  gcongr

theorem pair_exists (ha : 0 < a) (b0 : 0 ≤ b) (b1 : b ≤ 1) {r : ℝ} (hr : 0 < r) (h : r < 2 * (1 + a)) :
    ∃ s, 0 < s ∧ pair b a r s = 2 := by
  have p := per_pos b0 b1 hr
  have c : Continuous (pair b a r) := by
    have := per_continuous (b := b)
    unfold pair joint; fun_prop
  have lo : pair b a r 0 = r / (1 + a) := by simp [pair, joint, per]
  have hi : 2 ≤ pair b a r (2 * (1 + a)) := by
    have := per_pos b0 b1 (show 0 < 2 * (1 + a) by positivity)
    unfold pair joint
    rw [le_div_iff₀ (by positivity)]
    have : 0 ≤ a * (2 * (1 + a) * per b r + r * per b (2 * (1 + a))) := by positivity
    linarith
  have lo2 : pair b a r 0 < 2 := by rw [lo, div_lt_iff₀ (by positivity)]; exact h
  obtain ⟨s, hs, e⟩ := intermediate_value_Icc (show (0 : ℝ) ≤ 2 * (1 + a) by positivity) c.continuousOn
    (show (2 : ℝ) ∈ Icc (pair b a r 0) (pair b a r (2 * (1 + a))) from ⟨lo2.le, hi⟩)
  refine ⟨s, lt_of_le_of_ne hs.1 fun h => ?_, e⟩
  rw [← h] at e
  linarith

theorem cross' (ha : 0 < a) (b0 : 0 ≤ b) (small : a * (2 * b - 1) ≤ 2) {ρ σ : ℝ} (hρ : 0 < ρ) (hσ : 0 < σ)
    (ne : ρ ≠ σ) (h : ρ * ρ + σ * σ + a * (ρ * σ * (ρ + σ) * (1 - b + b * (ρ * σ))) = 2 * (1 + a)) :
    a * (ρ * σ) * (b * (ρ * σ) - (1 - b)) < ρ + σ := by
  have p0 : 0 < ρ * σ := mul_pos hρ hσ
  have t0 : 0 < ρ + σ := by linarith
  have sq : 0 < (ρ - σ) * (ρ - σ) := mul_self_pos.mpr (sub_ne_zero.mpr ne)
  have tp : 4 * (ρ * σ) < (ρ + σ) * (ρ + σ) := by nlinarith
  have s2 : 2 * (ρ * σ) < ρ * ρ + σ * σ := by nlinarith
  generalize ρ * σ = p at *
  generalize ρ * ρ + σ * σ = q at *
  generalize ρ + σ = t at *
  have p1 : p < 1 := by
    by_contra hp
    push Not at hp
    have t2 : 2 < t := by nlinarith
    have k : 1 ≤ 1 - b + b * p := by nlinarith
    have k2 : 2 ≤ p * t := by nlinarith
    have k3 : 2 ≤ p * t * (1 - b + b * p) := by nlinarith
    nlinarith
  have tp2 : 2 * p < t := by nlinarith
  rcases le_or_gt (b * p - (1 - b)) 0 with n | n
  · have := mul_nonneg (mul_pos ha p0).le (neg_nonneg.mpr n)
    nlinarith
  · have k : b * p - (1 - b) ≤ 2 * b - 1 := by nlinarith
    have := mul_le_mul_of_nonneg_left k (mul_pos ha p0).le
    have := mul_le_mul_of_nonneg_left small p0.le
    nlinarith

theorem below_pair (ha : 0 < a) (b0 : 0 ≤ b) (b1 : b ≤ 1) (small : a * (2 * b - 1) ≤ 2) {r s : ℝ} (hr : 0 < r) (hs : 0 < s)
    (h : pair b a r s = 2) : (r < s → repass b a r < s) ∧ (s < r → s < repass b a r) := by
  have p := per_pos b0 b1 hr
  have D : 0 < 1 + a * per b r := by positivity
  have eρ := Real.mul_self_sqrt hr.le
  have eσ := Real.mul_self_sqrt hs.le
  have hρ := Real.sqrt_pos.mpr hr
  have hσ := Real.sqrt_pos.mpr hs
  unfold repass
  rw [div_lt_iff₀ D, lt_div_iff₀ D]
  unfold pair at h
  rw [div_eq_iff (by positivity)] at h
  unfold joint per at h
  unfold per
  generalize Real.sqrt r = ρ at *
  generalize Real.sqrt s = σ at *
  subst eρ eσ
  have h' : ρ * ρ + σ * σ + a * (ρ * σ * (ρ + σ) * (1 - b + b * (ρ * σ))) = 2 * (1 + a) := by rw [← h]; ring
  have key := fun ne => cross' ha b0 small hρ hσ ne h'
  have id : 2 * (1 + a) - 2 * (σ * σ * (1 + a * ((1 - b + b * (ρ * ρ)) * ρ)))
      = (σ - ρ) * (a * (ρ * σ) * (b * (ρ * σ) - (1 - b)) - (ρ + σ)) := by
    linear_combination (-1) * h'
  constructor
  · intro lt
    have lt : ρ < σ := by nlinarith
    have := mul_neg_of_pos_of_neg (sub_pos.mpr lt) (sub_neg.mpr (key lt.ne))
    linarith
  · intro lt
    have lt : σ < ρ := by nlinarith
    have := mul_pos_of_neg_of_neg (sub_neg.mpr lt) (sub_neg.mpr (key lt.ne'))
    linarith

/-- **Convergence of the passes.** -/
theorem repass_tendsto (ha : 0 < a) (b0 : 0 ≤ b) (b1 : b ≤ 1) (small : a * (2 * b - 1) ≤ 2) {x : ℕ → ℝ} (h0 : 0 < x 0)
    (top : x 0 ≤ 1 + a) (step : ∀ n, 0 < x n → x (n + 1) = repass b a (x n)) : Tendsto x atTop (𝓝 1) := by
  have pos : ∀ n, 0 < x n := by
    intro n
    induction n with
    | zero => exact h0
    | succ n ih => rw [step n ih]; exact repass_pos ha b0 b1 ih
  have stp : ∀ n, x (n + 1) = repass b a (x n) := fun n => step n (pos n)
  have up : ∀ n, x n ≤ 1 + a := by
    intro n
    cases n with
    | zero => exact top
    | succ n =>
      have p := mul_pos ha (per_pos b0 b1 (pos n))
      rw [stp]
      exact div_le_self (by linarith) (by linarith)
  have ph := per_pos b0 b1 (show 0 < 1 + a by linarith)
  set lo := min (x 0) ((1 + a) / (1 + a * per b (1 + a))) with hlo
  have lo0 : 0 < lo := lt_min h0 (by positivity)
  have low : ∀ n, lo ≤ x n := by
    intro n
    cases n with
    | zero => exact min_le_left _ _
    | succ n =>
      have p := per_pos b0 b1 (pos n)
      have pm := per_mono b0 b1 (pos n).le (up n)
      rw [stp]
      refine (min_le_right _ _).trans ?_
      unfold repass
      gcongr
  have cont : ContinuousOn (repass b a) (Icc lo (1 + a)) := by
    have := per_continuous (b := b)
    unfold repass
    refine ContinuousOn.div (by fun_prop) (by fun_prop) fun r hr => ?_
    have := per_pos b0 b1 (lo0.trans_le hr.1)
    positivity
  refine enveloped (g := pair b a) lo0 stp (fun n => ⟨low n, up n⟩) cont (repass_one ha) (fun r hr h => ?_) (fun r h => ?_)
    (fun r s => by unfold pair joint; ring) fun r r' s hr hs h => pair_mono ha b0 b1 hr hs h
  · obtain ⟨s, hs, e⟩ := pair_exists ha b0 b1 hr (by linarith)
    have ab := repass_above ha b0 b1 hr h
    refine ⟨h.trans ab, e ▸ pair_lt ha b0 b1 hr (repass_pos ha b0 b1 hr) ((below_pair ha b0 b1 small hr hs e).1 ?_)⟩
    by_contra hn
    push Not at hn
    have p := per_mono b0 b1 hr.le h.le
    have p' := per_mono b0 b1 hs.le (hn.trans h.le)
    rw [per_one] at p p'
    have := per_pos b0 b1 hr
    have := per_pos b0 b1 hs
    unfold pair joint at e
    rw [div_eq_iff (by positivity)] at e
    have : s * per b r + r * per b s < 2 := by nlinarith
    nlinarith
  · have hr : 0 < r := by linarith
    have be := repass_below ha b0 b1 h
    refine ⟨be.trans h, ?_⟩
    rcases lt_or_ge r (2 * (1 + a)) with lt | ge
    · obtain ⟨s, hs, e⟩ := pair_exists ha b0 b1 hr lt
      refine e ▸ pair_lt ha b0 b1 hr hs ((below_pair ha b0 b1 small hr hs e).2 ?_)
      by_contra hn
      push Not at hn
      have p := per_mono b0 b1 zero_le_one h.le
      have p' := per_mono b0 b1 zero_le_one (h.le.trans hn)
      rw [per_one] at p p'
      unfold pair joint at e
      rw [div_eq_iff (by positivity)] at e
      have : 2 < s * per b r + r * per b s := by nlinarith
      nlinarith
    · have k := repass_pos ha b0 b1 hr
      have := per_pos b0 b1 hr
      have := per_pos b0 b1 k
      unfold pair joint
      rw [lt_div_iff₀ (by positivity)]
      have : 0 < a * (repass b a r * per b r + r * per b (repass b a r)) := by positivity
      linarith

theorem repass_deriv (ha : 0 < a) : HasDerivAt (repass b a) (-((1 / 2 + b) * a) / (1 + a)) 1 := by
  have hs : HasDerivAt Real.sqrt (1 / 2) 1 := by
    have := Real.hasDerivAt_sqrt (x := 1) one_ne_zero
    rwa [Real.sqrt_one, mul_one] at this
  have lin : HasDerivAt (fun r : ℝ => 1 - b + b * r) b 1 := by
    have := ((hasDerivAt_id (1 : ℝ)).const_mul b).const_add (1 - b)
    rwa [mul_one] at this
  have den : HasDerivAt (fun r : ℝ => 1 + a * per b r) (a * (b + 1 / 2)) 1 := by
    have h := ((lin.mul hs).const_mul a).const_add 1
    rw [show a * (b + 1 / 2) = a * (b * Real.sqrt 1 + (1 - b + b * 1) * (1 / 2)) by rw [Real.sqrt_one]; ring]
    exact h
  have h := (hasDerivAt_const (1 : ℝ) (1 + a)).div den (by rw [per_one]; positivity)
  have e : -((1 / 2 + b) * a) / (1 + a) = (0 * (1 + a * per b 1) - (1 + a) * (a * (b + 1 / 2))) / (1 + a * per b 1) ^ 2 := by
    have : 1 + a ≠ 0 := by positivity
    rw [per_one]
    field_simp
    ring
  rw [e]
  exact h

theorem repass_repels (ha : 0 < a) (large : 2 < a * (2 * b - 1)) : ∀ᶠ r in 𝓝[≠] (1 : ℝ), |r - 1| < |repass b a r - 1| := by
  have h := (hasDerivAt_iff_tendsto_slope.mp (repass_deriv (b := b) ha))
  have big : 1 < |-((1 / 2 + b) * a) / (1 + a)| := by
    rw [abs_div, abs_of_pos (show 0 < 1 + a by linarith), abs_of_neg (by linarith), lt_div_iff₀ (by linarith)]
    linarith
  have ev := h.abs.eventually (lt_mem_nhds big)
  filter_upwards [ev, self_mem_nhdsWithin] with r hr ne
  rw [slope_def_field, repass_one ha, abs_div, lt_div_iff₀ (abs_pos.mpr (sub_ne_zero.mpr ne)), one_mul] at hr
  exact hr

/-- With larger steps the passes converge only if the first is exact. -/
theorem repass_const (ha : 0 < a) (b0 : 0 ≤ b) (b1 : b ≤ 1) (large : 2 < a * (2 * b - 1)) {r : ℕ → ℝ} (pos : ∀ n, 0 < r n)
    (step : ∀ n, r (n + 1) = repass b a (r n)) {l : ℝ} (lim : Tendsto r atTop (𝓝 l)) : r 0 = 1 := by
  have l0 : 0 ≤ l := ge_of_tendsto' lim fun n => (pos n).le
  have fixed : ∀ r, 0 < r → repass b a r = 1 → r = 1 := by
    intro r hr h
    rcases lt_trichotomy r 1 with lt | e | gt
    · exact absurd h (repass_above ha b0 b1 hr lt).ne'
    · exact e
    · exact absurd h (repass_below ha b0 b1 gt).ne
  have l1 : l = 1 := by
    have cont : ContinuousAt (repass b a) l := by
      have := (per_continuous (b := b)).continuousAt (x := l)
      unfold repass
      refine ContinuousAt.div (by fun_prop) (by fun_prop) ?_
      have : 0 ≤ per b l := by
        have := mul_nonneg b0 l0
        unfold per
        exact mul_nonneg (by linarith) (Real.sqrt_nonneg _)
      positivity
    have x : Tendsto (fun n => r (n + 1)) atTop (𝓝 (repass b a l)) :=
      (cont.tendsto.comp lim).congr fun n => (step n).symm
    have fx := tendsto_nhds_unique x (lim.comp (tendsto_add_atTop_nat 1))
    rcases l0.eq_or_lt with e | hl
    · rw [← e] at fx
      simp [repass, per] at fx
      linarith
    · rcases lt_trichotomy l 1 with lt | e | gt
      · have := repass_above ha b0 b1 hl lt; linarith
      · exact e
      · have := repass_below ha b0 b1 gt; linarith
  subst l1
  by_contra hn
  have never : ∀ n, r n ≠ 1 := by
    intro n
    induction n with
    | zero => exact hn
    | succ n ih => exact fun h => ih (fixed _ (pos n) (by rw [← step]; exact h))
  have lim' : Tendsto r atTop (𝓝[≠] 1) := tendsto_nhdsWithin_iff.mpr ⟨lim, Eventually.of_forall never⟩
  obtain ⟨N, hN⟩ := eventually_atTop.mp (lim'.eventually (repass_repels ha large))
  have grow : ∀ n, N ≤ n → |r N - 1| ≤ |r n - 1| := by
    intro n hn
    induction n, hn using Nat.le_induction with
    | base => exact le_rfl
    | succ k hk ih =>
      have := hN k hk
      rw [← step] at this
      exact ih.trans this.le
  have z : Tendsto (fun n => |r n - 1|) atTop (𝓝 0) := by
    have := (lim.sub_const 1).abs
    rwa [sub_self, abs_zero] at this
  have := ge_of_tendsto z (eventually_atTop.mpr ⟨N, grow⟩)
  exact never N (by have := abs_nonpos_iff.mp this; linarith)

end

end Pipedream.Settle
