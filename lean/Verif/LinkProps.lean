import Verif.LinkModel

/-!
# Properties of link and junction coefficients: C17, C18, and the physical form of C02
-/

namespace Pipedream.Link

open Pipedream.Sweep

theorem pyDiv_ok (x : ℝ) {y : ℝ} (h : y ≠ 0) : pyDiv x y = .ok (x / y) := by simp [pyDiv, h]

/-! ### C17 -/

/-- **C17 (resistance is non-negative).** For a wet link (`A, R > 0`), positive roughness, and
non-negative length, whenever the friction law yields a value it is ≥ 0 — for every method code and
flow of either sign. -/
theorem C17_friction_nonneg {Q dx A R n g : ℝ} {method : ℤ} {t : ℝ}
    (hdx : 0 ≤ dx) (hR : 0 < R) (hn : 0 < n) (hg : 0 < g)
    (ht : frictionSlope Q dx A R n method g = .ok t) : 0 ≤ t := by
  unfold frictionSlope at ht
  by_cases hA : 0 < A
  · rw [if_pos hA] at ht
    by_cases h0 : method = 0
    · rw [if_pos h0] at ht
      have hr : R ^ (4 / 3 : ℝ) ≠ 0 := (Real.rpow_pos_of_pos hR _).ne'
      simp only [pyDiv_ok _ hA.ne', pyDiv_ok _ hr, bind, Except.bind] at ht
      injection ht with ht
      rw [← ht]; positivity
    rw [if_neg h0] at ht
    by_cases h1 : method = 1
    · rw [if_pos h1] at ht
      have hr : R ^ (1.1655 : ℝ) ≠ 0 := (Real.rpow_pos_of_pos hR _).ne'
      have ha : A ^ (0.85 : ℝ) ≠ 0 := (Real.rpow_pos_of_pos hA _).ne'
      have hn' : n ^ (1.85 : ℝ) ≠ 0 := (Real.rpow_pos_of_pos hn _).ne'
      simp only [pyDiv_ok _ ha, pyDiv_ok _ hn', pyDiv_ok _ hr, bind, Except.bind] at ht
      injection ht with ht
      rw [← ht]; positivity
    rw [if_neg h1] at ht
    by_cases h2 : method = 2
    · rw [if_pos h2] at ht
      have h3 : (3.7 * 4 * R : ℝ) ≠ 0 := by positivity
      have h4 : A * R ≠ 0 := by positivity
      simp only [pyDiv_ok _ hA.ne', pyDiv_ok _ h3, pyDiv_ok _ h4, bind, Except.bind] at ht
      by_cases c1 : (|Q| / A * 4 * R / nuVisc) ^ (0.9 : ℝ) = 0
      · simp [pyDiv, c1] at ht
      · simp only [pyDiv_ok _ c1] at ht
        by_cases c2 : Real.logb 10 (n / (3.7 * 4 * R) + 5.74 / (|Q| / A * 4 * R / nuVisc) ^ (0.9 : ℝ)) ^ 2
            = 0
        · simp [pyDiv, c2] at ht
        · simp only [pyDiv_ok _ c2] at ht
          injection ht with ht
          rw [← ht]; positivity
    · rw [if_neg h2] at ht; cases ht
  · rw [if_neg hA] at ht
    injection ht with ht
    rw [← ht]

/-- **C17 (direction does not matter).** Reversing the flow leaves the outcome (value or exception)
of the friction law unchanged. -/
theorem C17_friction_even (Q dx A R n g : ℝ) (method : ℤ) :
    frictionSlope (-Q) dx A R n method g = frictionSlope Q dx A R n method g := by
  unfold frictionSlope
  rw [abs_neg]

/-- **C17 (Manning and Hazen–Williams are total).** On a wet link the friction laws 0 and 1 never
raise; a dry link never raises whatever the method. -/
theorem C17_friction_total {Q dx A R n g : ℝ} {method : ℤ} (hR : 0 < R) (hn : 0 < n)
    (h : A ≤ 0 ∨ method = 0 ∨ method = 1) : ∃ t, frictionSlope Q dx A R n method g = .ok t := by
  by_cases hA : 0 < A
  · rcases h with h | h | h
    · exact absurd hA (not_lt.mpr h)
    · subst h
      have hr : R ^ (4 / 3 : ℝ) ≠ 0 := (Real.rpow_pos_of_pos hR _).ne'
      unfold frictionSlope
      simp only [if_pos hA, if_true, pyDiv_ok _ hA.ne', pyDiv_ok _ hr, bind, Except.bind]
      exact ⟨_, rfl⟩
    · subst h
      have hr : R ^ (1.1655 : ℝ) ≠ 0 := (Real.rpow_pos_of_pos hR _).ne'
      have ha : A ^ (0.85 : ℝ) ≠ 0 := (Real.rpow_pos_of_pos hA _).ne'
      have hn' : n ^ (1.85 : ℝ) ≠ 0 := (Real.rpow_pos_of_pos hn _).ne'
      unfold frictionSlope
      rw [if_pos hA, if_neg (by decide), if_pos rfl]
      simp only [pyDiv_ok _ ha, pyDiv_ok _ hr, pyDiv_ok _ hn', bind, Except.bind]
      exact ⟨_, rfl⟩
  · exact ⟨0, by unfold frictionSlope; rw [if_neg hA]⟩

/-- **C17 finding.** With the Darcy–Weisbach method a wet link at rest (`Q = 0`) raises a division by
zero (the Reynolds number is 0 and the law divides by its power) instead of giving zero friction. -/
theorem C17_darcy_weisbach_at_rest_raises {dx A R n g : ℝ} (hA : 0 < A) (hR : 0 < R) :
    frictionSlope 0 dx A R n 2 g = .error .zeroDivision := by
  unfold frictionSlope
  have h3 : (3.7 * 4 * R : ℝ) ≠ 0 := by positivity
  rw [if_pos hA, abs_zero, if_neg (by decide), if_neg (by decide), if_pos rfl]
  simp only [pyDiv_ok _ hA.ne', pyDiv_ok _ h3, bind, Except.bind, zero_div, zero_mul]
  rw [Real.zero_rpow (by norm_num)]
  simp [pyDiv]

/-- **C17 (momentum diagonal dominates).** Whenever `b` is computed, `b` plus the two (non-positive)
neighbour couplings is exactly the inertia term plus a non-negative resistance, hence at least
`σ·dx/dt` (`dx/dt` without inertial damping, where `σ = 1`). -/
theorem C17_b_dominates {dx dt n Q A R A_c C u1 u2 sigma g b : ℝ} {ctrl : Bool} {method : ℤ}
    (hdx : 0 ≤ dx) (hA : 0 ≤ A) (hR : 0 < R) (hn : 0 < n) (hg : 0 < g) (hC : 0 ≤ C)
    (hb : bIk dx dt n Q A R A_c C (aIk u1 sigma) (cIk u2 sigma) ctrl sigma method g = .ok b) :
    dx / dt * sigma ≤ aIk u1 sigma + b + cIk u2 sigma := by
  unfold bIk at hb
  cases hf : frictionSlope Q dx A R n method g with
  | error e => rw [hf] at hb; simp [bind, Except.bind] at hb
  | ok t =>
    have ht := C17_friction_nonneg hdx hR hn hg hf
    rw [hf] at hb
    simp only [bind, Except.bind, pure, Except.pure] at hb
    injection hb with hb
    have h2 : 0 ≤ (if ctrl then C * A * |Q| / A_c ^ 2 else 0 : ℝ) := by
      split_ifs <;> positivity
    rw [← hb]
    linarith

/-- Upwinding: both couplings are non-positive for non-negative damping coefficient. -/
theorem C17_couplings_nonpos {u sigma : ℝ} (hs : 0 ≤ sigma) : aIk u sigma ≤ 0 ∧ cIk u sigma ≤ 0 := by
  unfold aIk cIk
  constructor
  · have : 0 ≤ max u 0 := le_max_right _ _
    nlinarith
  · have : 0 ≤ max (-u) 0 := le_max_right _ _
    nlinarith

/-- The damping coefficient always lies in `[0,1]`, is 1 for slow flow and 0 for supercritical flow,
and vanishes only for Froude numbers ≥ 1. -/
theorem C17_sigma_range (Fr : ℝ) : 0 ≤ sigmaOf Fr ∧ sigmaOf Fr ≤ 1 ∧ (Fr < 1/2 → sigmaOf Fr = 1) ∧
    (1 ≤ Fr → sigmaOf Fr = 0) ∧ (Fr < 1 → 0 < sigmaOf Fr) := by
  unfold sigmaOf
  simp only
  refine ⟨?_, ?_, ?_, ?_, ?_⟩
  · split_ifs <;> norm_num at * <;> linarith
  · split_ifs <;> norm_num at * <;> linarith
  · intro h; rw [if_neg (by linarith), if_pos (by norm_num; linarith)]
  · intro h; split_ifs with h1 h2
    · rfl
    · norm_num at h2; linarith
    · push Not at h1; linarith
  · intro h; rw [if_neg (by linarith)]; split_ifs <;> linarith

/-! ### C18 -/

/-- **C18.** Velocity at the upstream junction of link `i`: at a superlink start it is the link's own
velocity; elsewhere, for positive link lengths, it lies between the velocities of the two adjoining
links. -/
theorem C18_uIk_between (dx u : ℕ → ℝ) (st : ℕ → Bool) (i : ℕ) :
    (st i = true → uIk dx u st i = u i) ∧
    (st i = false → 0 < dx i → 0 < dx (i-1) →
      min (u (i-1)) (u i) ≤ uIk dx u st i ∧ uIk dx u st i ≤ max (u (i-1)) (u i)) := by
  refine ⟨fun h => by simp [uIk, h], fun h h1 h2 => ?_⟩
  have hd : dx i + dx (i-1) ≠ 0 := by positivity
  have hp : 0 < dx i + dx (i-1) := by positivity
  simp only [uIk, h, Bool.false_eq_true, if_false, ne_eq, hd, not_false_eq_true, if_true]
  rw [le_div_iff₀ hp, div_le_iff₀ hp]
  have a1 := min_le_left (u (i-1)) (u i)
  have a2 := min_le_right (u (i-1)) (u i)
  have b1 := le_max_left (u (i-1)) (u i)
  have b2 := le_max_right (u (i-1)) (u i)
  constructor <;> nlinarith

/-- **C18.** Same at the downstream junction. -/
theorem C18_uIp1k_between (dx u : ℕ → ℝ) (en : ℕ → Bool) (i : ℕ) :
    (en i = true → uIp1k dx u en i = u i) ∧
    (en i = false → 0 < dx i → 0 < dx (i+1) →
      min (u i) (u (i+1)) ≤ uIp1k dx u en i ∧ uIp1k dx u en i ≤ max (u i) (u (i+1))) := by
  refine ⟨fun h => by simp [uIp1k, h], fun h h1 h2 => ?_⟩
  have hd : dx i + dx (i+1) ≠ 0 := by positivity
  have hp : 0 < dx i + dx (i+1) := by positivity
  simp only [uIp1k, h, Bool.false_eq_true, if_false, ne_eq, hd, not_false_eq_true, if_true]
  rw [le_div_iff₀ hp, div_le_iff₀ hp]
  have a1 := min_le_left (u i) (u (i+1))
  have a2 := min_le_right (u i) (u (i+1))
  have b1 := le_max_left (u i) (u (i+1))
  have b2 := le_max_right (u i) (u (i+1))
  constructor <;> nlinarith

/-- **C18.** The two velocities computed for an interior junction — as the downstream end of link `i`
and as the upstream end of link `i+1` — are the same number. -/
theorem C18_shared_junction (dx u : ℕ → ℝ) (st en : ℕ → Bool) (i : ℕ)
    (h1 : en i = false) (h2 : st (i+1) = false) : uIp1k dx u en i = uIk dx u st (i+1) := by
  simp only [uIp1k, uIk, h1, h2, Bool.false_eq_true, if_false, Nat.add_sub_cancel]
  rw [add_comm (dx (i+1)) (dx i), add_comm (dx (i+1) * u i)]

/-- **C18.** A dry link has zero velocity; a wet link has velocity `Q/A`. -/
theorem C18_dry_link (Q A : ℝ) : (A = 0 → uik Q A = 0) ∧ (A ≠ 0 → uik Q A * A = Q) := by
  constructor
  · intro h; simp [uik, h]
  · intro h; simp [uik, h]

/-! ### The coefficients of a step are physical (closes C02) -/

/-- Index tables of a superlink with `n` links starting at link `i1`, junction `I1`
(superlink.py 405–432; proved for the generated tables in `TopologyProps`). -/
structure NodeIdxSpec (ix : NodeIdx) (n I1 i1 k : ℕ) : Prop where
  kI : ∀ j, j ≤ n → ix.kI (I1 + j) = k
  start : ∀ j, j ≤ n → (ix.isStart (I1 + j) = true ↔ j = 0)
  fin : ∀ j, j ≤ n → (ix.isEnd (I1 + j) = true ↔ j = n)
  fwd : ∀ j, j < n → ix.fwd (I1 + j) = i1 + j
  bwd : ix.bwd (I1 + n) = i1 + n - 1

/-- Plan area of the water surface attributed to junction `j` of superlink `k` (specification): half
of each adjoining link, the end stretch at the two ends, plus the junction's own area. -/
noncomputable def junctionArea (y : NodeIn) (n I1 i1 k j : ℕ) : ℝ :=
  (if j = 0 then y.B_uk k * y.dx_uk k else y.B (i1 + j - 1) * y.dx (i1 + j - 1)) / 2
  + (if j = n then y.B_dk k * y.dx_dk k else y.B (i1 + j) * y.dx (i1 + j)) / 2
  + y.A_S (I1 + j)

/-- The junction coefficients: `E` is plan area over `dt`, `D` is lateral inflow plus `E` times the
previous depth. -/
theorem node_coeffs_eq {y : NodeIn} {ix : NodeIdx} {n I1 i1 k : ℕ} (hn : 1 ≤ n)
    (S : NodeIdxSpec ix n I1 i1 k) {j : ℕ} (hj : j ≤ n) :
    nodeE y ix (I1 + j) = junctionArea y n I1 i1 k j / y.dt ∧
    nodeD y ix (I1 + j) = y.Q_0 (I1 + j) + junctionArea y n I1 i1 k j / y.dt * y.h (I1 + j) := by
  have kk := S.kI j hj
  by_cases h0 : j = 0
  · have hs : ix.isStart (I1 + j) = true := (S.start j hj).2 h0
    have hf := S.fwd j (by omega)
    subst h0
    have hn0 : (0:ℕ) ≠ n := by omega
    simp only [nodeE, nodeD, hs, if_true, hf, kk, EIk, DIk, junctionArea, hn0, if_false]
    constructor <;> ring
  · have hs : ix.isStart (I1 + j) = false := by
      rw [Bool.eq_false_iff]; exact fun h => h0 ((S.start j hj).1 h)
    by_cases h1 : j = n
    · have he : ix.isEnd (I1 + j) = true := (S.fin j hj).2 h1
      subst h1
      simp only [nodeE, nodeD, hs, he, if_true, Bool.false_eq_true, if_false, S.bwd, kk, EIk, DIk,
        junctionArea, h0]
      constructor <;> ring
    · have he : ix.isEnd (I1 + j) = false := by
        rw [Bool.eq_false_iff]; exact fun h => h1 ((S.fin j hj).1 h)
      have hf := S.fwd j (by omega)
      simp only [nodeE, nodeD, hs, he, Bool.false_eq_true, if_false, hf, EIk, DIk, junctionArea, h0,
        h1]
      constructor <;> ring

/-- Physical data of the links and junctions of one superlink. -/
structure PhysicalData (g : ℝ) (x : LinkIn) (y : NodeIn) (n I1 i1 k : ℕ) : Prop where
  g_pos : 0 < g
  dt_pos : 0 < x.dt
  dt_eq : y.dt = x.dt
  A_pos : ∀ j, j < n → 0 < x.A (i1 + j)
  R_pos : ∀ j, j < n → 0 < x.R (i1 + j)
  n_pos : ∀ j, j < n → 0 < x.n (i1 + j)
  dx_pos : ∀ j, j < n → 0 < x.dx (i1 + j)
  C_nonneg : ∀ j, j < n → 0 ≤ x.C (i1 + j)
  sigma_pos : ∀ j, j < n → 0 < x.sigma (i1 + j)
  dx_eq : ∀ j, j < n → y.dx (i1 + j) = x.dx (i1 + j)
  B_nonneg : ∀ j, j < n → 0 ≤ y.B (i1 + j)
  Bu_nonneg : 0 ≤ y.B_uk k
  Bd_nonneg : 0 ≤ y.B_dk k
  dxu_nonneg : 0 ≤ y.dx_uk k
  dxd_nonneg : 0 ≤ y.dx_dk k
  AS_nonneg : ∀ j, j ≤ n → 0 ≤ y.A_S (I1 + j)

theorem junctionArea_nonneg {g : ℝ} {x : LinkIn} {y : NodeIn} {n I1 i1 k : ℕ}
    (pd : PhysicalData g x y n I1 i1 k) {j : ℕ} (hj : j ≤ n) :
    0 ≤ junctionArea y n I1 i1 k j := by
  unfold junctionArea
  have h3 := pd.AS_nonneg j hj
  have hl : ∀ m, m < n → 0 ≤ y.B (i1 + m) * y.dx (i1 + m) := fun m hm =>
    mul_nonneg (pd.B_nonneg m hm) (by rw [pd.dx_eq m hm]; exact (pd.dx_pos m hm).le)
  have h1 : 0 ≤ (if j = 0 then y.B_uk k * y.dx_uk k else y.B (i1 + j - 1) * y.dx (i1 + j - 1)) := by
    split_ifs with h
    · exact mul_nonneg pd.Bu_nonneg pd.dxu_nonneg
    · have := hl (j-1) (by omega)
      rwa [show i1 + (j-1) = i1 + j - 1 by omega] at this
  have h2 : 0 ≤ (if j = n then y.B_dk k * y.dx_dk k else y.B (i1 + j) * y.dx (i1 + j)) := by
    split_ifs with h
    · exact mul_nonneg pd.Bd_nonneg pd.dxd_nonneg
    · exact hl j (by omega)
  positivity

/-- **C02 (physical data).** The coefficients computed by `link_coeffs` and `node_coeffs` from
physical data satisfy the hypotheses of `C02_pivots_positive`, for either flow direction, every
friction method that returns, with or without inertial damping (as long as the damping coefficient has
not vanished, i.e. the Froude number is below 1), and every `dt > 0`. -/
theorem C02_coefficients_physical {g : ℝ} {N : ℕ} {x : LinkIn} {y : NodeIn} {ix : NodeIdx}
    {co : Coef ℝ} (hc : StepCoefs g N x y ix co) {n I1 i1 k : ℕ} (hn : 1 ≤ n) (hN : i1 + n ≤ N)
    (S : NodeIdxSpec ix n I1 i1 k) (pd : PhysicalData g x y n I1 i1 k) :
    Physical g (co.slice i1 I1) n := by
  refine ⟨pd.g_pos, fun i hi => ?_, fun i hi => ?_, fun i hi => ?_, fun i hi => ?_, fun I hI => ?_⟩
  · simp only [Coef.slice]; rw [(hc.1 (i1+i) (by omega)).2.2.2.2]; exact pd.A_pos i hi
  · simp only [Coef.slice]; rw [(hc.1 (i1+i) (by omega)).1]
    exact (C17_couplings_nonpos (pd.sigma_pos i hi).le).1
  · simp only [Coef.slice]; rw [(hc.1 (i1+i) (by omega)).2.2.1]
    exact (C17_couplings_nonpos (pd.sigma_pos i hi).le).2
  · simp only [Coef.slice]
    obtain ⟨ha, hb, hcc, -, -⟩ := hc.1 (i1+i) (by omega)
    rw [ha, hcc]
    have := C17_b_dominates (pd.dx_pos i hi).le (pd.A_pos i hi).le (pd.R_pos i hi) (pd.n_pos i hi)
      pd.g_pos (pd.C_nonneg i hi) hb
    have h2 : 0 < x.dx (i1+i) / x.dt * x.sigma (i1+i) :=
      mul_pos (div_pos (pd.dx_pos i hi) pd.dt_pos) (pd.sigma_pos i hi)
    exact lt_of_lt_of_le h2 this
  · simp only [Coef.slice]
    rw [hc.2.1, (node_coeffs_eq hn S hI).1]
    exact div_nonneg (junctionArea_nonneg pd hI) (by rw [pd.dt_eq]; exact pd.dt_pos.le)

/-! ### Non-vacuity -/

/-- Wet link with Manning friction, flow `-2`. -/
example : ∃ t, frictionSlope (-2) 100 1 0.5 0.01 0 9.81 = .ok t ∧ 0 ≤ t := by
  obtain ⟨t, ht⟩ := C17_friction_total (Q := -2) (dx := 100) (A := 1) (R := 0.5) (n := 0.01) (g := 9.81)
    (method := 0) (by norm_num) (by norm_num) (Or.inr (Or.inl rfl))
  exact ⟨t, ht, C17_friction_nonneg (by norm_num) (by norm_num) (by norm_num) (by norm_num) ht⟩

/-- Two links of one superlink with uniform physical data. -/
noncomputable def exLink : LinkIn where
  dx _ := 10
  n _ := 0.01
  Qprev _ := 1
  Qnext _ := -1
  A _ := 2
  R _ := 0.5
  A_c _ := 1
  C _ := 0
  ctrl _ := false
  sigma _ := 1
  method _ := 0
  S_o _ := 0.001
  linkStart i := i == 0
  linkEnd i := i == 1
  dt := 60

noncomputable def exNode : NodeIn where
  Q_0 _ := 0
  B _ := 1
  h _ := 1
  dx _ := 10
  A_S _ := 0
  B_uk _ := 1
  B_dk _ := 1
  dx_uk _ := 0
  dx_dk _ := 0
  dt := 60

def exNodeIdx : NodeIdx where
  kI _ := 0
  fwd I := I
  bwd I := I - 1
  isStart I := I == 0
  isEnd I := I == 2

example : ∃ co, StepCoefs 9.81 2 exLink exNode exNodeIdx co ∧
    NodeIdxSpec exNodeIdx 2 0 0 0 ∧ PhysicalData 9.81 exLink exNode 2 0 0 0 := by
  have hb : ∀ i, ∃ b, exLink.b 9.81 i = .ok b := by
    intro i
    obtain ⟨t, ht⟩ := C17_friction_total (Q := -1) (dx := 10) (A := 2) (R := 0.5) (n := 0.01) (g := 9.81)
      (method := 0) (by norm_num) (by norm_num) (Or.inr (Or.inl rfl))
    simp only [LinkIn.b, bIk]
    simp only [exLink] at *
    rw [ht]
    exact ⟨_, rfl⟩
  choose b hb using hb
  refine ⟨⟨exLink.a, b, exLink.c, exLink.P 9.81, exLink.A, nodeE exNode exNodeIdx, nodeD exNode exNodeIdx⟩,
    ⟨fun i _ => ⟨rfl, hb i, rfl, rfl, rfl⟩, fun _ => rfl, fun _ => rfl⟩, ?_, ?_⟩
  · refine ⟨fun _ _ => rfl, ?_, ?_, fun j _ => by simp [exNodeIdx], rfl⟩ <;> intro j hj <;>
      simp [exNodeIdx]
  · constructor <;> intros <;> norm_num [exLink, exNode]

end Pipedream.Link
