import Verif.BaseCoefModel
import Verif.BaseSweepProps
import Verif.LinkProps

/-!
# Link and junction coefficients of the base class

Property C125: both classes discretise the same momentum and continuity equations.
-/

set_option linter.unusedSectionVars false
set_option linter.unusedVariables false

namespace Pipedream.Base

open Pipedream.Sweep Pipedream.Topology Pipedream.Link

variable {t : Tables} {n J L : ℕ → ℕ}

/-! ### Velocities -/

/-- **C125.** The velocity of a link: the classes agree exactly if the area is not negative or there is no flow. -/
theorem C125_velocity_iff (Q A : ℝ) : u_ik Q A = uik Q A ↔ 0 ≤ A ∨ Q = 0 := by
  unfold u_ik uik
  rcases lt_trichotomy A 0 with h | h | h
  · have h1 : ¬ 0 < A := not_lt.2 h.le
    simp only [if_neg h1, ne_eq, not_true_eq_false, if_false, h.ne, not_false_eq_true, if_true]
    constructor
    · intro e
      rcases div_eq_zero_iff.1 e.symm with h2 | h2
      · exact Or.inr h2
      · exact absurd h2 h.ne
    · rintro (h2 | h2)
      · exact absurd h (not_lt.2 h2)
      · rw [h2, zero_div]
  · subst h
    simp
  · simp only [if_pos h, ne_eq, h.ne', not_false_eq_true, if_true, true_iff]
    exact Or.inl h.le

/-- **C125.** The velocities at the junctions: on a table in which every superlink occupies consecutive rows, with any
link velocities, the base class (which looks the neighbour up) and the numba class (which takes the neighbouring row)
interpolate between the same two links, in both directions. -/
theorem C125_junction_velocities (B : Blocks t n J L) (dx u : ℕ → ℝ) {k j : ℕ} (hk : k < t.NK) (hj : j < n k) :
    uI t dx u (L k + j) = uIk dx u t.linkStart (L k + j) ∧
      uIp1 t dx u (L k + j) = uIp1k dx u t.linkEnd (L k + j) := by
  constructor
  · unfold uI uIk
    rw [B.Ik k hk j hj]
    by_cases h : j = 0
    · rw [if_pos ((B.isStart hk hj.le).2 h), if_pos ((B.linkStart hk hj).2 h)]
    · rw [if_neg (fun e => h ((B.isStart hk hj.le).1 e)), if_neg (fun e => h ((B.linkStart hk hj).1 e))]
      obtain ⟨q, rfl⟩ : ∃ q, j = q + 1 := ⟨j - 1, by omega⟩
      have e : t.backwardIi (J k + (q + 1)) = L k + q := B.backwardIi hk (by omega)
      rw [e, show L k + (q + 1) - 1 = L k + q by omega]
      rfl
  · unfold uIp1 uIp1k
    rw [B.Ip1k k hk j hj, show J k + j + 1 = J k + (j + 1) by omega]
    by_cases h : j + 1 = n k
    · rw [if_pos ((B.isEnd hk hj).2 h), if_pos ((B.linkEnd hk hj).2 h)]
    · rw [if_neg (fun e => h ((B.isEnd hk hj).1 e)), if_neg (fun e => h ((B.linkEnd hk hj).1 e))]
      have e : t.forwardIi (J k + (j + 1)) = L k + (j + 1) := B.forwardIi hk (by omega)
      rw [e]
      rfl

theorem ac_eq (B : Blocks t n J L) {x : LinkIn} (hs : x.linkStart = t.linkStart) (he : x.linkEnd = t.linkEnd)
    (hA : ∀ i, 0 ≤ x.A i) {damping : Bool} (hd : damping = false → ∀ i, x.sigma i = 1) {k j : ℕ} (hk : k < t.NK)
    (hj : j < n k) : a t damping x (L k + j) = x.a (L k + j) ∧ c t damping x (L k + j) = x.c (L k + j) := by
  have hu : (fun i => u_ik (x.Qnext i) (x.A i)) = fun i => uik (x.Qnext i) (x.A i) :=
    funext fun i => (C125_velocity_iff _ _).2 (Or.inl (hA i))
  have hsg : sigma damping x (L k + j) = x.sigma (L k + j) := by
    unfold sigma
    cases damping with
    | true => rfl
    | false => rw [hd rfl]; rfl
  obtain ⟨h1, h2⟩ := C125_junction_velocities B x.dx (fun i => uik (x.Qnext i) (x.A i)) hk hj
  unfold a c LinkIn.a LinkIn.c
  rw [hu, h1, h2, hsg, hs, he]
  exact ⟨rfl, rfl⟩

/-! ### Momentum -/

/-- **C125.** The momentum coefficient `b` with Manning's law: the classes agree exactly if the inertia that the base
class does not damp equals the difference of the two control losses (`C A |Q| / A_c²` against `A |Q| / (A_c C)²`). -/
theorem C125_b_iff {dx dt n Q A R A_c C a c g sigma : ℝ} {ctrl : Bool} (hR : 0 < A → 0 < R) :
    bIk dx dt n Q A R A_c C a c ctrl sigma 0 g = .ok (b_ik dx dt n Q A R A_c C a c ctrl 1 g) ↔
      dx / dt * (1 - sigma) = if ctrl then C * A * |Q| / A_c ^ 2 - A * |Q| / A_c ^ 2 / C ^ 2 else 0 := by
  have hf : frictionSlope Q dx A R n 0 g
      = .ok (if 0 < A then g * n ^ 2 * |Q| * dx / A / R ^ (4 / 3 : ℝ) else 0) := by
    unfold frictionSlope
    by_cases h : 0 < A
    · rw [if_pos h, if_pos h, if_pos rfl, pyDiv_ok _ h.ne']
      show pyDiv _ _ = _
      rw [pyDiv_ok _ (Real.rpow_pos_of_pos (hR h) _).ne']
    · rw [if_neg h, if_neg h]
  unfold bIk
  rw [hf]
  show Except.ok _ = Except.ok _ ↔ _
  rw [Except.ok.injEq]
  unfold b_ik
  cases ctrl
  · simp only [Bool.false_eq_true, if_false]
    constructor <;> intro h <;> linarith
  · simp only [if_true]
    constructor <;> intro h <;> linarith

/-- **C125.** Without a control structure they agree exactly where the inertia is not damped. -/
theorem C125_b_damped_iff {dx dt n Q A R A_c C a c g sigma : ℝ} (hR : 0 < A → 0 < R) (hdx : 0 < dx) (hdt : 0 < dt) :
    bIk dx dt n Q A R A_c C a c false sigma 0 g = .ok (b_ik dx dt n Q A R A_c C a c false 1 g) ↔ sigma = 1 := by
  rw [C125_b_iff hR]
  have : dx / dt ≠ 0 := (div_pos hdx hdt).ne'
  simp only [Bool.false_eq_true, if_false, mul_eq_zero, this, false_or]
  constructor <;> intro h <;> linarith

/-- **C125.** At a control structure, without damping, they agree exactly if the discharge coefficient is one or
nothing flows. -/
theorem C125_b_control_iff {dx dt n Q A R A_c C a c g : ℝ} (hA : 0 < A) (hR : 0 < R) (hc : A_c ≠ 0) (hC : 0 < C) :
    bIk dx dt n Q A R A_c C a c true 1 0 g = .ok (b_ik dx dt n Q A R A_c C a c true 1 g) ↔ C = 1 ∨ Q = 0 := by
  rw [C125_b_iff (fun _ => hR)]
  simp only [if_true, sub_self, mul_zero]
  have hk : C * A * |Q| / A_c ^ 2 - A * |Q| / A_c ^ 2 / C ^ 2 = A / A_c ^ 2 * |Q| * ((C ^ 3 - 1) / C ^ 2) := by
    field_simp
  rw [hk, eq_comm, mul_eq_zero, mul_eq_zero, div_eq_zero_iff, div_eq_zero_iff, abs_eq_zero]
  have h1 : A_c ^ 2 ≠ 0 := pow_ne_zero 2 hc
  have h2 : C ^ 2 ≠ 0 := pow_ne_zero 2 hC.ne'
  have h3 : C ^ 3 - 1 = 0 ↔ C = 1 := by
    constructor
    · intro h
      have : (C - 1) * (C ^ 2 + C + 1) = 0 := by linear_combination h
      rcases mul_eq_zero.1 this with h | h
      · linarith
      · nlinarith [sq_nonneg C]
    · rintro rfl; norm_num
  rw [h3]
  simp only [hA.ne', h1, h2, or_false, false_or]
  exact or_comm

/-- **C125.** What the missing damping does to steady uniform flow (no advection, equal depths at both ends): a flow is
kept by the momentum equation of the base class exactly if friction plus the undamped part of the inertia balances
gravity; by that of the numba class exactly if friction balances gravity. -/
theorem C125_uniform_flow_iff (dx dt n Q A R A_c C S_o g sigma : ℝ) :
    (b_ik dx dt n Q A R A_c C 0 0 false 1 g * Q = P_ik Q dx dt A S_o sigma g ↔
      b_ik dx dt n Q A R A_c C 0 0 false 0 g * Q + dx / dt * (1 - sigma) * Q = g * A * S_o * dx) ∧
    (b_ik dx dt n Q A R A_c C 0 0 false sigma g * Q = PIk Q dx dt A S_o sigma g ↔
      b_ik dx dt n Q A R A_c C 0 0 false 0 g * Q = g * A * S_o * dx) := by
  unfold b_ik P_ik PIk
  simp only [Bool.false_eq_true, if_false]
  have e : Q * dx / dt = dx / dt * Q := by ring
  rw [e]
  constructor <;> constructor <;> intro h <;> linear_combination h

/-- **C125.** The right hand side: the classes agree whenever the current flow is the flow at the start of the step
(as in the first of several iterations). -/
theorem C125_P (damping : Bool) (x : LinkIn) (g : ℝ) (i : ℕ) (hd : damping = false → x.sigma i = 1) :
    P damping x g i - x.P g i = (x.Qnext i - x.Qprev i) * x.dx i / x.dt * x.sigma i := by
  have hsg : sigma damping x i = x.sigma i := by
    unfold sigma
    cases damping with
    | true => rfl
    | false => rw [hd rfl]; rfl
  unfold P LinkIn.P P_ik PIk
  rw [hsg]
  ring

/-! ### Continuity -/

/-- **C125.** At the junctions inside a superlink the classes compute the same continuity coefficients. -/
theorem C125_interior (B : Blocks t n J L) (y : NodeIn) {k j : ℕ} (hk : k < t.NK) (h0 : 0 < j) (hj : j < n k) :
    E t y (J k + j) = nodeE y t.nodeIdx (J k + j) ∧ D t y (J k + j) = nodeD y t.nodeIdx (J k + j) := by
  have hs : ¬ t.isStart (J k + j) = true := fun e => by have := (B.isStart hk hj.le).1 e; omega
  have he : ¬ t.isEnd (J k + j) = true := fun e => by have := (B.isEnd hk hj.le).1 e; omega
  have hf : t.forwardIi (J k + j) = L k + j := B.forwardIi hk hj
  have hb : t.backwardIi (J k + j) = L k + j - 1 := by
    obtain ⟨q, rfl⟩ : ∃ q, j = q + 1 := ⟨j - 1, by omega⟩
    have : t.backwardIi (J k + (q + 1)) = L k + q := B.backwardIi hk (by omega)
    rw [this]; omega
  unfold E D nodeE nodeD
  simp only [Tables.nodeIdx, hs, he, if_false, Bool.false_eq_true, hf, hb]
  exact ⟨trivial, trivial⟩

/-- **C125.** At the two end junctions the base class leaves out the stretch to the end of the pipe
(`B_uk dx_uk`, `B_dk dx_dk`): `E` agrees exactly if that area is zero, `D` exactly if it is zero or the junction
is empty. -/
theorem C125_ends_iff (B : Blocks t n J L) (y : NodeIn) (hdt : y.dt ≠ 0) {k : ℕ} (hk : k < t.NK) :
    (E t y (J k) = nodeE y t.nodeIdx (J k) ↔ y.B_uk k * y.dx_uk k = 0) ∧
    (D t y (J k) = nodeD y t.nodeIdx (J k) ↔ y.B_uk k * y.dx_uk k = 0 ∨ y.h (J k) = 0) ∧
    (E t y (J k + n k) = nodeE y t.nodeIdx (J k + n k) ↔ y.B_dk k * y.dx_dk k = 0) ∧
    (D t y (J k + n k) = nodeD y t.nodeIdx (J k + n k) ↔ y.B_dk k * y.dx_dk k = 0 ∨ y.h (J k + n k) = 0) := by
  have hp := B.pos k hk
  have s0 : t.isStart (J k) = true := (B.isStart (j := 0) hk (Nat.zero_le _)).2 rfl
  have e0 : ¬ t.isEnd (J k) = true := fun e => by have := (B.isEnd (j := 0) hk (Nat.zero_le _)).1 e; omega
  have sn : ¬ t.isStart (J k + n k) = true := fun e => by have := (B.isStart hk (le_refl _)).1 e; omega
  have en : t.isEnd (J k + n k) = true := (B.isEnd hk (le_refl _)).2 rfl
  have k0 : t.kI (J k) = k := B.kI k hk 0 (Nat.zero_le _)
  have kn : t.kI (J k + n k) = k := B.kI k hk (n k) (le_refl _)
  unfold E D nodeE nodeD
  simp only [Tables.nodeIdx, s0, e0, sn, en, k0, kn, if_true, if_false, Bool.false_eq_true]
  unfold EIk DIk
  refine ⟨?_, ?_, ?_, ?_⟩
  · rw [div_left_inj' hdt]
    constructor <;> intro h <;> linarith
  · rw [add_right_inj, mul_eq_mul_right_iff, div_eq_zero_iff, or_iff_left hdt]
    refine or_congr_left ?_
    constructor <;> intro h <;> linarith
  · rw [div_left_inj' hdt]
    constructor <;> intro h <;> linarith
  · rw [add_right_inj, mul_eq_mul_right_iff, div_eq_zero_iff, or_iff_left hdt]
    refine or_congr_left ?_
    constructor <;> intro h <;> linarith

/-! ### All of it -/

/-- **C125, where the classes agree.** Manning's law everywhere, no damping, control structures with discharge
coefficient one, no stretch between the end junctions and the ends of the pipes, flows those at the start of the step:
then the coefficients of the base class are those of the numba class at every link and junction of every superlink, the
numba class raises nothing, and so the base class's sweeps (end method other than `'o'`) leave the recurrence
coefficients of the numba class. -/
theorem C125_same_partial (B : Blocks t n J L) {x : LinkIn} {y : NodeIn} {g : ℝ} (damping : Bool)
    (hs : x.linkStart = t.linkStart) (he : x.linkEnd = t.linkEnd) (hA : ∀ i, 0 ≤ x.A i)
    (hR : ∀ i, 0 < x.A i → 0 < x.R i) (hsg : ∀ i, x.sigma i = 1) (hm : ∀ i, x.method i = 0)
    (hC : ∀ i, x.ctrl i = true → x.C i = 1) (hQ : x.Qprev = x.Qnext)
    (hu : ∀ k, y.dx_uk k = 0) (hd : ∀ k, y.dx_dk k = 0) :
    ∀ k, k < t.NK →
      (∀ j, j < n k → a t damping x (L k + j) = x.a (L k + j) ∧ x.b g (L k + j) = .ok (b t damping x g (L k + j)) ∧
        c t damping x (L k + j) = x.c (L k + j) ∧ P damping x g (L k + j) = x.P g (L k + j)) ∧
      (∀ j, j ≤ n k → E t y (J k + j) = nodeE y t.nodeIdx (J k + j) ∧ D t y (J k + j) = nodeD y t.nodeIdx (J k + j)) := by
  intro k hk
  refine ⟨fun j hj => ?_, fun j hj => ?_⟩
  · obtain ⟨h1, h2⟩ := ac_eq B hs he hA (damping := damping) (fun _ => hsg) hk hj
    refine ⟨h1, ?_, h2, ?_⟩
    · unfold LinkIn.b b
      rw [hm, h1, h2, C125_b_iff (hR _), hsg]
      by_cases hc : x.ctrl (L k + j) = true
      · rw [if_pos hc, hC _ hc]; ring
      · rw [if_neg hc]; ring
    · have := C125_P damping x g (L k + j) (fun _ => hsg _)
      rw [hQ, sub_self, zero_mul, zero_div, zero_mul] at this
      linarith
  · by_cases h0 : j = 0
    · subst h0
      have hp := B.pos k hk
      have s0 : t.isStart (J k + 0) = true := (B.isStart (j := 0) hk (Nat.zero_le _)).2 rfl
      have e0 : ¬ t.isEnd (J k + 0) = true := fun e => by have := (B.isEnd (j := 0) hk (Nat.zero_le _)).1 e; omega
      unfold E D nodeE nodeD
      simp only [Tables.nodeIdx, s0, e0, if_true, if_false, Bool.false_eq_true, hu, EIk, DIk, mul_zero]
      exact ⟨trivial, trivial⟩
    · by_cases hn : j = n k
      · subst hn
        have sn : ¬ t.isStart (J k + n k) = true := fun e => by have := (B.isStart hk (le_refl _)).1 e; omega
        have en : t.isEnd (J k + n k) = true := (B.isEnd hk (le_refl _)).2 rfl
        unfold E D nodeE nodeD
        simp only [Tables.nodeIdx, sn, en, if_true, if_false, Bool.false_eq_true, hd, EIk, DIk, mul_zero]
        exact ⟨trivial, trivial⟩
      · exact C125_interior B y hk (by omega) (by omega)

/-! ### Non-vacuity and the disagreement -/

/-- A wet link at Froude number 3/4 (damping coefficient one half): the coefficients differ. -/
theorem C125_witness : sigmaOf (3/4) = 1/2 ∧
    bIk 10 1 (1/50) 1 1 1 1 1 0 0 false (sigmaOf (3/4)) 0 9.81
      ≠ .ok (b_ik 10 1 (1/50) 1 1 1 1 1 0 0 false 1 9.81) ∧
    bIk 10 1 (1/50) 1 1 1 1 (1/2) 0 0 true 1 0 9.81 ≠ .ok (b_ik 10 1 (1/50) 1 1 1 1 (1/2) 0 0 true 1 9.81) := by
  have h : sigmaOf (3/4) = 1/2 := by unfold sigmaOf; norm_num
  refine ⟨h, ?_, ?_⟩
  · rw [Ne, C125_b_damped_iff (by norm_num) (by norm_num) (by norm_num), h]; norm_num
  · rw [Ne, C125_b_control_iff (by norm_num) (by norm_num) (by norm_num) (by norm_num)]; norm_num

/-- Two superlinks of one and two links, wet, with flow. -/
example : ∃ (x : LinkIn) (y : NodeIn), x.linkStart = Lsq.mixed.linkStart ∧ x.linkEnd = Lsq.mixed.linkEnd ∧
    (∀ i, 0 ≤ x.A i) ∧ (∀ i, 0 < x.A i → 0 < x.R i) ∧ (∀ i, x.sigma i = 1) ∧ (∀ i, x.method i = 0) ∧
    (∀ i, x.ctrl i = true → x.C i = 1) ∧ x.Qprev = x.Qnext ∧ (∀ k, y.dx_uk k = 0) ∧ (∀ k, y.dx_dk k = 0) ∧
    x.Qnext 0 ≠ 0 ∧ x.ctrl 1 = true :=
  ⟨⟨fun _ => 10, fun _ => 1, fun _ => 3, fun _ => 3, fun _ => 2, fun _ => 1, fun _ => 1, fun _ => 1, fun i => i = 1,
    fun _ => 1, fun _ => 0, fun _ => 0, Lsq.mixed.linkStart, Lsq.mixed.linkEnd, 1⟩,
   ⟨fun _ => 0, fun _ => 1, fun _ => 1, fun _ => 10, fun _ => 1, fun _ => 1, fun _ => 1, fun _ => 0, fun _ => 0, 1⟩,
   rfl, rfl, by norm_num, by norm_num, fun _ => rfl, fun _ => rfl, fun _ _ => rfl, rfl, fun _ => rfl, fun _ => rfl,
   by norm_num, by simp⟩

end Pipedream.Base
