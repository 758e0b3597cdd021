import Verif.DiagnosticsModel
import Verif.NetworkProps
import Verif.ControlProps
import Verif.LinkProps
import Verif.StorageProps
import Mathlib.Analysis.MeanInequalities
import Mathlib.Algebra.Order.Chebyshev

/-!
# Properties of derived quantities: C95–C99
-/

set_option linter.unusedSectionVars false

namespace Pipedream.Diag

open Pipedream.Network Finset

/-! ### C95: the augmented system -/

section augmented

variable {K : Type*} [Field K] [LinearOrder K] [IsStrictOrderedRing K]

/-- The augmented system `A_1 x⁺ = A_2 x + Q` of size `M + 1` holds between two vectors. -/
def AugHolds (M : ℕ) (A1 A2 : ℕ → ℕ → K) (Q x xn : ℕ → K) : Prop :=
  ∀ i, i ≤ M → ∑ j ∈ range (M + 1), A1 i j * xn j = ∑ j ∈ range (M + 1), A2 i j * x j + Q i

theorem aug_left (M : ℕ) (L : ℕ → ℕ → K) (x : ℕ → K) {i : ℕ} (hi : i < M) :
    ∑ j ∈ range (M + 1), augA1 M L i j * x j = ∑ j ∈ range M, L i j * x j := by
  rw [sum_range_succ]
  have : augA1 M L i M = 0 := by simp [augA1, hi.ne]
  rw [this, zero_mul, add_zero]
  exact sum_congr rfl fun j hj => by simp [augA1, hi, mem_range.1 hj]

theorem aug_left_last (M : ℕ) (L : ℕ → ℕ → K) (x : ℕ → K) :
    ∑ j ∈ range (M + 1), augA1 M L M j * x j = x M := by
  rw [sum_range_succ, sum_eq_zero]
  · simp [augA1]
  · intro j hj
    simp [augA1, (mem_range.1 hj).ne]

theorem aug_right (net : Net K) (dt : K) (D v : ℕ → K) {i : ℕ} (hi : i < net.M) :
    ∑ j ∈ range (net.M + 1), augA2 net dt D i j * ext net.M v j
      = (if net.bc i = false then net.As i / dt else 0) * v i + D i := by
  rw [sum_range_succ]
  have h1 : augA2 net dt D i net.M * ext net.M v net.M = D i := by simp [augA2, hi, ext]
  rw [h1]
  congr 1
  rw [sum_eq_single i]
  · simp [augA2, hi, ext]
  · intro j hj hji
    simp [augA2, hi, mem_range.1 hj, Ne.symm hji]
  · intro h; exact absurd (mem_range.2 hi) h

theorem aug_right_last (net : Net K) (dt : K) (D v : ℕ → K) :
    ∑ j ∈ range (net.M + 1), augA2 net dt D net.M j * ext net.M v j = 1 := by
  rw [sum_range_succ, sum_eq_zero]
  · simp [augA2, ext]
  · intro j hj
    simp [augA2, (mem_range.1 hj).ne]

variable (net : Net K) (dt : K) (m : Mats K) (Hprev Q0 Hbc x : ℕ → K)

/-- **C95, partial.** On the rows of superjunctions without a prescribed head, and on the last row, the
augmented system holds between the heads before and after a step. -/
theorem C95_free_partial
    (hx : Solves net.M (systemMatrix net (assembleMats net dt m)) (assembleB net dt Hprev Q0 Hbc) x)
    {i : ℕ} (hi : i ≤ net.M) (hf : i < net.M → net.bc i = false) :
    ∑ j ∈ range (net.M + 1), augA1 net.M (systemMatrix net (assembleMats net dt m)) i j * ext net.M x j
      = ∑ j ∈ range (net.M + 1), augA2 net dt (assembleD net Hprev) i j * ext net.M Hprev j + augQ net.M Q0 i := by
  rcases hi.lt_or_eq with hi | rfl
  · rw [aug_left _ _ _ hi, aug_right _ _ _ _ hi]
    have e : ∀ j ∈ range net.M, systemMatrix net (assembleMats net dt m) i j * ext net.M x j
        = systemMatrix net (assembleMats net dt m) i j * x j := fun j hj => by
      simp [ext, mem_range.1 hj]
    rw [sum_congr rfl e, hx i hi]
    simp only [assembleB, hf hi, augQ, hi, if_true, Bool.false_eq_true, if_false]
    ring
  · rw [aug_left_last, aug_right_last]
    simp [ext, augQ]

/-- **C95 (what is missing).** The whole augmented system holds for a step exactly when at every fixed
superjunction the flow terms `D + Q` happen to equal the prescribed head. -/
theorem C95_holds_iff
    (hx : Solves net.M (systemMatrix net (assembleMats net dt m)) (assembleB net dt Hprev Q0 Hbc) x) :
    AugHolds net.M (augA1 net.M (systemMatrix net (assembleMats net dt m)))
      (augA2 net dt (assembleD net Hprev)) (augQ net.M Q0) (ext net.M Hprev) (ext net.M x) ↔
    ∀ i, i < net.M → net.bc i = true → assembleD net Hprev i + Q0 i = Hbc i := by
  have row : ∀ i (hi : i < net.M), net.bc i = true →
      (∑ j ∈ range (net.M + 1), augA1 net.M (systemMatrix net (assembleMats net dt m)) i j * ext net.M x j = Hbc i)
      := by
    intro i hi hb
    rw [aug_left _ _ _ hi]
    have e : ∀ j ∈ range net.M, systemMatrix net (assembleMats net dt m) i j * ext net.M x j
        = systemMatrix net (assembleMats net dt m) i j * x j := fun j hj => by
      simp [ext, mem_range.1 hj]
    rw [sum_congr rfl e, hx i hi]
    simp [assembleB, hb]
  constructor
  · intro h i hi hb
    have := h i hi.le
    rw [row i hi hb, aug_right _ _ _ _ hi] at this
    rw [this]
    simp [hb, augQ, hi]
  · intro h i hi
    by_cases hf : i < net.M → net.bc i = false
    · exact C95_free_partial net dt m Hprev Q0 Hbc x hx hi hf
    · push Not at hf
      obtain ⟨hi', hb⟩ := hf
      have hb : net.bc i = true := by simpa using hb
      rw [row i hi' hb, aug_right _ _ _ _ hi', ← h i hi' hb]
      simp [hb, augQ, hi']

/-- **C95, no fixed heads.** Without fixed superjunctions a vector satisfies the augmented system after
`(Hprev, 1)` exactly when it is `(x, 1)` with `x` solving the head equations of the step. -/
theorem C95_no_boundary (hb : ∀ i, i < net.M → net.bc i = false) (y : ℕ → K) :
    AugHolds net.M (augA1 net.M (systemMatrix net (assembleMats net dt m)))
      (augA2 net dt (assembleD net Hprev)) (augQ net.M Q0) (ext net.M Hprev) y ↔
    y net.M = 1 ∧ Solves net.M (systemMatrix net (assembleMats net dt m)) (assembleB net dt Hprev Q0 Hbc) y := by
  constructor
  · intro h
    refine ⟨?_, fun i hi => ?_⟩
    · have := h net.M le_rfl
      rw [aug_left_last, aug_right_last] at this
      simpa [augQ] using this
    · have := h i hi.le
      rw [aug_left _ _ _ hi, aug_right _ _ _ _ hi] at this
      rw [this]
      simp only [assembleB, hb i hi, augQ, hi, if_true, Bool.false_eq_true, if_false]
      ring
  · rintro ⟨h1, h2⟩ i hi
    rcases hi.lt_or_eq with hi | rfl
    · rw [aug_left _ _ _ hi, aug_right _ _ _ _ hi, h2 i hi]
      simp only [assembleB, hb i hi, augQ, hi, if_true, Bool.false_eq_true, if_false]
      ring
    · rw [aug_left_last, aug_right_last, h1]
      simp [augQ]

/-- **C95 (state space).** The same gap in `state_space_system`: with the returned `A_1`, `A_2`, `D`,
`Q_in` the row of a fixed superjunction holds exactly when `D + Q_in` equals the prescribed head. -/
theorem C95_state_space_iff
    (hx : Solves net.M (systemMatrix net (assembleMats net dt m)) (assembleB net dt Hprev Q0 Hbc) x)
    {i : ℕ} (hi : i < net.M) (hb : net.bc i = true) :
    ∑ j ∈ range net.M, systemMatrix net (assembleMats net dt m) i j * x j
        = A2 net dt i * Hprev i + Q0 i + assembleD net Hprev i ↔
      Hbc i = Q0 i + assembleD net Hprev i := by
  rw [hx i hi]
  simp [assembleB, hb, A2]

/-- **C95 (negation).** In the network of `exNet`, whose superjunction 2 is held at head 5, the augmented system
does not hold for the step. -/
theorem C95_violated : ∃ x : ℕ → ℚ,
    Solves exNet.M (systemMatrix exNet (assembleMats exNet 1 ⟨fun _ _ => 0, fun _ _ => 0, fun _ _ => 0, fun _ _ => 0⟩))
      (assembleB exNet 1 (fun _ => 1) (fun _ => 0) (fun _ => 5)) x ∧
    ¬ AugHolds exNet.M (augA1 exNet.M (systemMatrix exNet
        (assembleMats exNet 1 ⟨fun _ _ => 0, fun _ _ => 0, fun _ _ => 0, fun _ _ => 0⟩)))
      (augA2 exNet 1 (assembleD exNet fun _ => 1)) (augQ exNet.M fun _ => 0) (ext exNet.M fun _ => 1) (ext exNet.M x) := by
  obtain ⟨x, hx⟩ := (C06_unique_solution exNet 1 one_pos _ (cleanMats_zero exNet)
    (by constructor <;> intros <;> norm_num [exNet]) (assembleB exNet 1 (fun _ => 1) (fun _ => 0) (fun _ => 5))).1
  refine ⟨x, hx, fun h => ?_⟩
  have := (C95_holds_iff exNet 1 _ _ _ _ x hx).1 h 2 (by norm_num [exNet]) (by norm_num [exNet])
  revert this
  simp [assembleD, ctrlD, exNet, addAt, forRange, upd]
  try norm_num

/-- Non-vacuity of `C95_no_boundary`: a single free superjunction. -/
example : AugHolds 1 (augA1 1 fun _ _ => (2 : ℚ)) (augA2
    { exNet with M := 1, bc := fun _ => false, As := fun _ => 2 } 1 fun _ => 3) (augQ 1 fun _ => 1)
    (ext 1 fun _ => 1) (ext 1 fun _ => 3) := by
  intro i hi
  obtain rfl | rfl : i = 0 ∨ i = 1 := by omega
  all_goals simp [sum_range_succ, augA1, augA2, augQ, ext]
  all_goals norm_num

end augmented

/-! ### C96: inverse Courant number -/

section courant

variable {K : Type*} [Field K] [LinearOrder K] [IsStrictOrderedRing K]

/-- Time water takes to pass the links of a superlink: length over velocity, summed. -/
def travelTime (i0 n : ℕ) (dx A Q : ℕ → K) : K := ∑ i ∈ range n, dx (i0 + i) * A (i0 + i) / |Q (i0 + i)|

/-- **C96, partial.** With the same flow and the same length in every link the value is the travel time. -/
theorem C96_uniform_partial {i0 n : ℕ} (hn : 0 < n) {dx A Q : ℕ → K} {q d : K} (hq : q ≠ 0)
    (hQ : ∀ i, i < n → Q (i0 + i) = q) (hd : ∀ i, i < n → dx (i0 + i) = d) (hd0 : 0 ≤ d)
    (hA : ∀ i, i < n → 0 ≤ A (i0 + i)) :
    inverseCourant i0 n dx A Q = .num (travelTime i0 n dx A Q) := by
  have hn' : (n : K) ≠ 0 := by exact_mod_cast hn.ne'
  have e1 : linkMean i0 n Q = q := by
    rw [linkMean, sum_congr rfl fun i hi => hQ i (mem_range.1 hi)]
    simp [hn']
  have e2 : ∑ i ∈ range n, dx (i0 + i) = n * d := by
    rw [sum_congr rfl fun i hi => hd i (mem_range.1 hi)]; simp
  have e3 : travelTime i0 n dx A Q = d * (∑ i ∈ range n, A (i0 + i)) / |q| := by
    rw [travelTime, mul_sum, sum_div]
    exact sum_congr rfl fun i hi => by rw [hQ i (mem_range.1 hi), hd i (mem_range.1 hi)]
  have hs : 0 ≤ ∑ i ∈ range n, A (i0 + i) := sum_nonneg fun i hi => hA i (mem_range.1 hi)
  rw [inverseCourant, e1, absDiv, if_neg hq, e2, e3, linkMean]
  congr 1
  rw [abs_div]
  congr 1
  rw [abs_of_nonneg]
  · field_simp
  · positivity

/-- **C96, what the value is with a uniform flow.** It is the travel time exactly when mean area times length
equals the volume of water in the links. -/
theorem C96_uniform_flow_iff {i0 n : ℕ} (hn : 0 < n) {dx A Q : ℕ → K} {q : K} (hq : q ≠ 0)
    (hQ : ∀ i, i < n → Q (i0 + i) = q) (hd : ∀ i, i < n → 0 ≤ dx (i0 + i)) (hA : ∀ i, i < n → 0 ≤ A (i0 + i)) :
    inverseCourant i0 n dx A Q = .num (travelTime i0 n dx A Q) ↔
      linkMean i0 n A * ∑ i ∈ range n, dx (i0 + i) = ∑ i ∈ range n, dx (i0 + i) * A (i0 + i) := by
  have hn' : (n : K) ≠ 0 := by exact_mod_cast hn.ne'
  have e1 : linkMean i0 n Q = q := by
    rw [linkMean, sum_congr rfl fun i hi => hQ i (mem_range.1 hi)]
    simp [hn']
  have e3 : travelTime i0 n dx A Q = (∑ i ∈ range n, dx (i0 + i) * A (i0 + i)) / |q| := by
    rw [travelTime, sum_div]
    exact sum_congr rfl fun i hi => by rw [hQ i (mem_range.1 hi)]
  have hs : 0 ≤ ∑ i ∈ range n, A (i0 + i) := sum_nonneg fun i hi => hA i (mem_range.1 hi)
  have hl : 0 ≤ ∑ i ∈ range n, dx (i0 + i) := sum_nonneg fun i hi => hd i (mem_range.1 hi)
  have hm : 0 ≤ linkMean i0 n A * ∑ i ∈ range n, dx (i0 + i) := by
    unfold linkMean; positivity
  rw [inverseCourant, e1, absDiv, if_neg hq, e3, abs_div, abs_of_nonneg hm]
  constructor
  · intro h
    have h := Flt.num.inj h
    have hq' : |q| ≠ 0 := abs_ne_zero.2 hq
    field_simp at h
    exact h
  · intro h; rw [h]

/-- **C96, safe side.** With equal lengths and areas and positive flows the value does not exceed the travel
time, however the flow varies along the superlink. -/
theorem C96_equal_links {i0 n : ℕ} (hn : 0 < n) {dx A Q : ℕ → K} {a d : K} (ha : 0 ≤ a) (hd0 : 0 ≤ d)
    (hA : ∀ i, i < n → A (i0 + i) = a) (hd : ∀ i, i < n → dx (i0 + i) = d) (hQ : ∀ i, i < n → 0 < Q (i0 + i)) :
    ∃ t, inverseCourant i0 n dx A Q = .num t ∧ t ≤ travelTime i0 n dx A Q := by
  have hn' : (0 : K) < n := by exact_mod_cast hn
  have hS : 0 < ∑ i ∈ range n, Q (i0 + i) :=
    sum_pos (fun i hi => hQ i (mem_range.1 hi)) ⟨0, mem_range.2 hn⟩
  have hm : 0 < linkMean i0 n Q := div_pos hS hn'
  have e1 : linkMean i0 n A = a := by
    rw [linkMean, sum_congr rfl fun i hi => hA i (mem_range.1 hi)]
    simp [hn'.ne']
  have e2 : ∑ i ∈ range n, dx (i0 + i) = n * d := by
    rw [sum_congr rfl fun i hi => hd i (mem_range.1 hi)]; simp
  refine ⟨|a * (n * d) / linkMean i0 n Q|, ?_, ?_⟩
  · rw [inverseCourant, e1, e2, absDiv, if_neg hm.ne']
  · have e3 : travelTime i0 n dx A Q = d * a * ∑ i ∈ range n, (Q (i0 + i))⁻¹ := by
      rw [travelTime, mul_sum]
      exact sum_congr rfl fun i hi => by
        rw [hA i (mem_range.1 hi), hd i (mem_range.1 hi), abs_of_pos (hQ i (mem_range.1 hi)), div_eq_mul_inv]
    have key : (n : K) ^ 2 ≤ (∑ i ∈ range n, Q (i0 + i)) * ∑ i ∈ range n, (Q (i0 + i))⁻¹ := by
      have h := Finset.sum_sq_le_sum_mul_sum_of_sq_le_mul (range n) (r := fun _ => (1 : K))
        (f := fun i => Q (i0 + i)) (g := fun i => (Q (i0 + i))⁻¹)
        (fun i hi => (hQ i (mem_range.1 hi)).le) (fun i hi => (inv_pos.2 (hQ i (mem_range.1 hi))).le)
        (fun i hi => by rw [mul_inv_cancel₀ (hQ i (mem_range.1 hi)).ne']; norm_num)
      simpa using h
    rw [e3, abs_of_nonneg (by positivity), linkMean, div_div_eq_mul_div, div_le_iff₀ hS]
    have h0 : 0 ≤ d * a := by positivity
    nlinarith [mul_le_mul_of_nonneg_left key h0]

/-- **C96 (negation).** Flows of opposite direction in two links: the value is infinite although each link is
passed in finite time. -/
theorem C96_opposing {dx A : ℕ → K} {q : K} (hA : (A 0 + A 1) * (dx 0 + dx 1) ≠ 0) :
    inverseCourant 0 2 dx A (fun i => if i = 0 then q else -q) = .inf := by
  have e : linkMean 0 2 (fun i : ℕ => if i = 0 then q else -q) = 0 := by
    simp [linkMean, sum_range_succ]
  have e2 : linkMean 0 2 A * ∑ i ∈ range 2, dx (0 + i) ≠ 0 := by
    simp only [linkMean, sum_range_succ, sum_range_zero, zero_add]
    intro h
    apply hA
    have : (2 : K) ≠ 0 := two_ne_zero
    push_cast at h
    field_simp at h
    simpa using h
  rw [inverseCourant, e, absDiv, if_pos rfl, if_neg e2]

/-- **C96 (negation).** A superlink without flow and without wetted area gives not-a-number. -/
theorem C96_empty (i0 n : ℕ) (dx : ℕ → K) : inverseCourant i0 n dx (fun _ => 0) (fun _ => 0) = .nan := by
  simp [inverseCourant, linkMean, absDiv]

/-- **C96 (negation).** A short wide link before a long narrow one: 5.5 instead of 1.9. -/
theorem C96_overestimates :
    inverseCourant 0 2 (fun i => if i = 0 then (1 : ℚ) else 9) (fun i => if i = 0 then 1 else 1 / 10) (fun _ => 1)
      = .num (11 / 2) ∧
    travelTime 0 2 (fun i => if i = 0 then (1 : ℚ) else 9) (fun i => if i = 0 then 1 else 1 / 10) (fun _ => 1)
      = 19 / 10 := by
  constructor
  · simp only [inverseCourant, linkMean, absDiv, sum_range_succ, sum_range_zero]
    norm_num
  · simp only [travelTime, sum_range_succ, sum_range_zero]
    norm_num

end courant

/-! ### C98: flow regime and inertial damping -/

section regime

/-- **C98, Froude number.** For positive area and width it is velocity over the speed of shallow-water waves. -/
theorem C98_froude {g u A B : ℝ} (hg : 0 < g) (hA : 0 < A) (hB : 0 < B) :
    froude g u A B = |u| / Real.sqrt (g * A / B) := by
  have h1 : Real.sqrt (g * A) ≠ 0 := (Real.sqrt_pos.2 (by positivity)).ne'
  have h2 : Real.sqrt B ≠ 0 := (Real.sqrt_pos.2 hB).ne'
  rw [froude, safeDivide_of_ne _ h1, Real.sqrt_div (by positivity)]
  field_simp

/-- **C98, direction.** Reversing the flow does not change the damping. -/
theorem C98_reverse (g Q A B : ℝ) : damping g (-Q) A B = damping g Q A B := by
  unfold damping froude
  have : |safeDivide (-Q) A| = |safeDivide Q A| := by
    by_cases h : A = 0
    · simp [safeDivide, h]
    · rw [safeDivide_of_ne _ h, safeDivide_of_ne _ h, neg_div, abs_neg]
  rw [this]

/-- **C98, monotone.** A faster flow is damped at least as much. -/
theorem C98_sigma_antitone : Antitone Link.sigmaOf := by
  intro x y h
  unfold Link.sigmaOf
  dsimp only
  split_ifs <;> norm_num at * <;> linarith

theorem C98_flow_antitone {g A B Q Q' : ℝ} (h : |Q| ≤ |Q'|) : damping g Q' A B ≤ damping g Q A B := by
  refine C98_sigma_antitone ?_
  unfold froude
  have h1 : |safeDivide Q A| ≤ |safeDivide Q' A| := by
    by_cases hA : A = 0
    · simp [safeDivide, hA]
    · rw [safeDivide_of_ne _ hA, safeDivide_of_ne _ hA, abs_div, abs_div]
      exact div_le_div_of_nonneg_right h (abs_nonneg _)
  by_cases hs : Real.sqrt (g * A) = 0
  · simp [safeDivide, hs]
  · rw [safeDivide_of_ne _ hs, safeDivide_of_ne _ hs]
    gcongr

/-- **C98, no jumps.** The damping changes by at most twice the change of the Froude number. -/
theorem C98_lipschitz (x y : ℝ) : |Link.sigmaOf x - Link.sigmaOf y| ≤ 2 * |x - y| := by
  have key : ∀ x y : ℝ, x ≤ y → |Link.sigmaOf x - Link.sigmaOf y| ≤ 2 * |x - y| := by
    intro x y h
    rw [abs_of_nonneg (sub_nonneg.2 (C98_sigma_antitone h)), abs_of_nonpos (by linarith)]
    unfold Link.sigmaOf
    dsimp only
    split_ifs <;> norm_num at * <;> linarith
  rcases le_total x y with h | h
  · exact key x y h
  · rw [abs_sub_comm, abs_sub_comm x y]; exact key y x h

/-- **C98, regimes.** Slow flow (below half the wave speed) is not damped, flow at least as fast as waves is
damped completely, and in between the coefficient is `2 (1 - Fr)`. -/
theorem C98_regimes {g Q A B : ℝ} (hg : 0 < g) (hA : 0 < A) (hB : 0 < B) :
    (|Q| / A < Real.sqrt (g * A / B) / 2 → damping g Q A B = 1) ∧
    (Real.sqrt (g * A / B) ≤ |Q| / A → damping g Q A B = 0) ∧
    (Real.sqrt (g * A / B) / 2 ≤ |Q| / A → |Q| / A ≤ Real.sqrt (g * A / B) →
      damping g Q A B = 2 * (1 - |Q| / A / Real.sqrt (g * A / B))) := by
  have hs : 0 < Real.sqrt (g * A / B) := Real.sqrt_pos.2 (by positivity)
  have e : damping g Q A B = Link.sigmaOf (|Q| / A / Real.sqrt (g * A / B)) := by
    rw [damping, C98_froude hg hA hB, safeDivide_of_ne _ hA.ne', abs_div, abs_of_pos hA]
  rw [e]
  refine ⟨fun h => ?_, fun h => ?_, fun h h' => ?_⟩
  · exact (Link.C17_sigma_range _).2.2.1 (by rw [div_lt_iff₀ hs]; linarith)
  · exact (Link.C17_sigma_range _).2.2.2.1 (by rw [le_div_iff₀ hs]; linarith)
  · have h1 : 1 / 2 ≤ |Q| / A / Real.sqrt (g * A / B) := by rw [le_div_iff₀ hs]; linarith
    have h2 : |Q| / A / Real.sqrt (g * A / B) ≤ 1 := by rw [div_le_iff₀ hs]; linarith
    unfold Link.sigmaOf
    dsimp only
    rw [if_neg (by linarith), if_neg (by norm_num; linarith)]

/-- **C98, dry or full.** A link without area, or without a free surface, has Froude number 0 and is not damped, whatever
flow it carries. -/
theorem C98_dry {g Q A B : ℝ} (h : A = 0 ∨ B = 0) : froude g (safeDivide Q A) A B = 0 ∧ damping g Q A B = 1 := by
  have e : froude g (safeDivide Q A) A B = 0 := by
    rcases h with rfl | rfl <;> simp [froude, safeDivide]
  refine ⟨e, ?_⟩
  rw [damping, e]
  norm_num [Link.sigmaOf]

example : Link.sigmaOf (3 / 4) = 1 / 2 := by norm_num [Link.sigmaOf]

end regime

/-! ### C99: reported volumes -/

section volumes

variable {K : Type*} [Field K] [LinearOrder K] [IsStrictOrderedRing K]

/-- **C99, what is reported.** After a step `V_j` holds the volumes of the heads before the solve. -/
theorem C99_volume_before (z : ℕ → K) (mn : K) (vol : ℕ → K → K) (solve : HV K → ℕ → K) (s : HV K) (j : ℕ) :
    (passHV z mn vol solve s).V j = vol j (max (s.H j - z j) mn) := rfl

/-- **C99 (negation, iff).** With a strictly increasing storage curve the reported volume is that of the
reported head exactly when the depth did not change in the step. -/
theorem C99_current_iff (z : ℕ → K) (mn : K) (vol : ℕ → K → K) (solve : HV K → ℕ → K) (s : HV K) (j : ℕ)
    (hv : StrictMonoOn (vol j) (Set.Ici mn)) :
    (passHV z mn vol solve s).V j = vol j (max ((passHV z mn vol solve s).H j - z j) mn) ↔
      max ((passHV z mn vol solve s).H j - z j) mn = max (s.H j - z j) mn := by
  rw [C99_volume_before]
  constructor
  · intro h
    exact (hv.injOn (Set.mem_Ici.2 (le_max_right _ _)) (Set.mem_Ici.2 (le_max_right _ _)) h).symm
  · intro h; rw [h]

/-- **C99, partial: runs.** Over any sequence of passes the volumes reported after one pass are those of the
heads reported after the previous pass. -/
theorem C99_one_step_late (z : ℕ → K) (mn : K) (vol : ℕ → K → K) (solves : List (HV K → ℕ → K))
    (last : HV K → ℕ → K) (s : HV K) (j : ℕ) :
    ((solves ++ [last]).foldl (fun s f => passHV z mn vol f s) s).V j
      = vol j (max ((solves.foldl (fun s f => passHV z mn vol f s) s).H j - z j) mn) := by
  rw [List.foldl_append]
  rfl

/-- A tank of 10 m² whose level falls from 3 m to 1 m in a step still reports 30 m³. -/
example : (passHV (fun _ => (0 : ℚ)) 0 (fun _ h => 10 * h) (fun _ _ => 1) ⟨fun _ => 3, fun _ => 0⟩).V 0 = 30 := by
  norm_num [passHV, Interp.storageDepth]

end volumes

/-! ### C97: orifices below storages -/

section orifice

open Pipedream.Control

/-- **C97, partial.** An orifice whose upstream water level is above its lower edge and above the downstream
level reports a positive flow, provided the volume reported for the upstream superjunction is positive. -/
theorem C97_discharges_partial {g Ao Co Hu Hd u Vu Vd dt : ℝ} {o : Orifice} (hg : 0 < g) (hAo : Ao ≠ 0)
    (hCo : Co ≠ 0) (h0 : 0 ≤ o.opening u) (hwet : o.bottom < Hu) (hlow : Hd < Hu) (hV : 0 < Vu) (hdt : 0 < dt) :
    0 < orificeFlow g Ao Co Hu Hd u Vu Vd dt o := by
  obtain ⟨e, he, h⟩ := orificeCoef_regime ⟨0, 0, 0⟩ (2 * g * Co ^ 2 * Ao ^ 2) Hu Hd u o h0 (by
    rintro ⟨h, -⟩; linarith)
  have hm : max Hu Hd = Hu := max_eq_left hlow.le
  have hepos : 0 < e := by
    cases he with
    | submerged h1 h2 => linarith
    | free_fwd h1 h2 h3 => linarith
    | weir_fwd h1 h2 h3 => linarith
    | dry h1 => rw [hm] at h1; linarith
    | free_bwd h1 h2 h3 => linarith
    | weir_bwd h1 h2 h3 => linarith
  have hpos : 0 < 2 * g * Co ^ 2 * Ao ^ 2 * e := by positivity
  have hraw : 0 < orificeRaw g Ao Co Hu Hd u o := by
    unfold orificeRaw
    have hs : sgn Hu Hd = 1 := by simp [sgn, hlow.le]
    dsimp only
    rw [hs, one_mul]
    apply Real.sqrt_pos.2
    have : (orificeCoef ⟨0, 0, 0⟩ (2 * g * Co ^ 2 * Ao ^ 2) Hu Hd u o).alpha * Hu
      + (orificeCoef ⟨0, 0, 0⟩ (2 * g * Co ^ 2 * Ao ^ 2) Hu Hd u o).beta * Hd
      + (orificeCoef ⟨0, 0, 0⟩ (2 * g * Co ^ 2 * Ao ^ 2) Hu Hd u o).chi = 2 * g * Co ^ 2 * Ao ^ 2 * e := h
    rw [this]
    exact abs_pos.2 hpos.ne'
  have hlow' : Hu > Hd := hlow
  simp only [orificeFlow, orificeLimit, npSign, gt_iff_lt, hraw, if_true, one_mul, hlow, lt_min_iff]
  exact ⟨abs_pos.2 hraw.ne', div_pos hV hdt⟩

/-- **C97, functional storages.** Below a functional storage with water in it the orifice discharges. -/
theorem C97_functional {g Ao Co Hu Hd u Vd dt a b c h : ℝ} {o : Orifice} (hg : 0 < g) (hAo : Ao ≠ 0)
    (hCo : Co ≠ 0) (h0 : 0 ≤ o.opening u) (hwet : o.bottom < Hu) (hlow : Hd < Hu) (hdt : 0 < dt)
    (ha : 0 ≤ a) (hb : 0 ≤ b) (hc : 0 ≤ c) (hac : 0 < a ∨ 0 < c) (hh : 0 < h) :
    0 < orificeFlow g Ao Co Hu Hd u (Interp.functionalVolume a b c h) Vd dt o := by
  refine C97_discharges_partial hg hAo hCo h0 hwet hlow ?_ hdt
  have := Interp.C33_functional_strictMono ha hb hc hac (Set.mem_Ici.2 le_rfl) (Set.mem_Ici.2 hh.le) hh
  rwa [Interp.C33_functional_empty a b c hb] at this

/-- **C97 (negation).** Whatever the head, no orifice reports flow out of a tabular storage with vertical walls,
as long as the depth lies within the table. -/
theorem C97_tank_no_flow {n : ℕ} (hs As : ℕ → ℝ) (A : ℝ) (hA : ∀ i, As i = A) {h : ℝ}
    (hin : Interp.searchsorted n hs h < n) {g Ao Co Hu Hd u Vd dt : ℝ} {o : Orifice} (hHu : Hd < Hu) :
    orificeFlow g Ao Co Hu Hd u (Interp.tabularVolume n hs As (Interp.storageVs hs As) h) Vd dt o = 0 := by
  rw [Interp.C33_tank_volume_zero hs As A hA hin]
  simp [orificeFlow, orificeLimit, hHu]

theorem orificeLin_zero (old : Lin) (g Ao Co Hu Hd u : ℝ) (o : Orifice) :
    orificeLin old g 0 Ao Co Hu Hd u o = ⟨0, 0, 0⟩ := by
  have : gammaO 0 Ao Co g = 0 := by simp [gammaO, safeDivide]
  rw [orificeLin, this, C11_orifice_no_stale old ⟨0, 0, 0⟩]
  unfold orificeCoef
  simp

/-- **C97 (negation), runs.** An orifice that starts without flow (as the constructor leaves it) and whose
higher side is, in every step, a tabular storage with vertical walls and depth within its table, never passes
any water: neither into the head equations nor in the recorded flows. -/
theorem C97_tank_never_drains (g Co : ℝ) (o : Orifice) (ss : List OStep) (l : Lin)
    (hss : ∀ s ∈ ss, ∃ (n : ℕ) (hs As : ℕ → ℝ) (A h : ℝ), (∀ i, As i = A) ∧ Interp.searchsorted n hs h < n ∧
      (if s.Hu > s.Hd then s.Vu else s.Vd) = Interp.tabularVolume n hs As (Interp.storageVs hs As) h) :
    ∀ r ∈ runO g Co o ss (l, 0), r = (0, 0) := by
  induction ss generalizing l with
  | nil => intro r hr; simp [runO] at hr
  | cons s ss ih =>
    obtain ⟨n, hs, As, A, h, hA, hin, hV⟩ := hss s (by simp)
    rw [Interp.C33_tank_volume_zero hs As A hA hin] at hV
    have hq : orificeFlow g s.Ao Co s.Hu s.Hd s.u s.Vu s.Vd s.dt o = 0 := by
      simp only [orificeFlow, orificeLimit, hV, zero_div]
      rw [min_eq_right (abs_nonneg _), mul_zero]
    have hl : orificeLin l g 0 s.Ao Co s.Hu0 s.Hd0 s.u o = ⟨0, 0, 0⟩ := orificeLin_zero _ _ _ _ _ _ _ _
    intro r hr
    simp only [runO, stepO, hq, hl, List.mem_cons] at hr
    rcases hr with rfl | hr
    · simp [Lin.eval]
    · exact ih ⟨0, 0, 0⟩ (fun s hs => hss s (by simp [hs])) r hr

/-- Non-vacuity: a full tank (table to depth 4, 3 m of water) above an open orifice; the functional storage of
the same size discharges. -/
example : ∃ (n : ℕ) (hs As : ℕ → ℝ) (A h : ℝ), (∀ i, As i = A) ∧ Interp.searchsorted n hs h < n ∧ A = 10 ∧ h = 3 := by
  refine ⟨2, fun i => (i : ℝ) * 4, fun _ => 10, 10, 3, fun _ => rfl, ?_, rfl, rfl⟩
  have : Interp.searchsorted 2 (fun i => (i : ℝ) * 4) 3 = 1 := by
    refine Interp.searchsorted_eq (by norm_num) (fun i hi => ?_) (fun _ => by norm_num)
    obtain rfl : i = 0 := by omega
    norm_num
  rw [this]; norm_num

example : 0 < orificeFlow 9.81 1 0.6 3 0 1 (Interp.functionalVolume 0 0 10 3) 0 60 ⟨0, 0, 1, 1, false⟩ := by
  apply C97_functional <;> norm_num [Orifice.opening, Orifice.bottom]

end orifice

end Pipedream.Diag
