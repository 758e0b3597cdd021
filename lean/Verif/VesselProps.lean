import Verif.OutletProps

/-!
# C194: communicating vessels level out
-/

namespace Pipedream.Step

open Pipedream.Sweep Pipedream.Link Pipedream.Superlink Pipedream.Control Pipedream.Network Settle Filter Topology

variable {m : Model} {geo : Geo} {inp : Inputs} {wk : Work} {prev cur : Hyd} {co : Coef ℝ} {x : ℕ → ℝ} {i j o : ℕ}

noncomputable section

/-! ### Specification -/

/-- Superjunctions `i` and `j` are joined by orifice `o` and to nothing else. -/
structure Vessels (m : Model) (i j o : ℕ) : Prop where
  lt : i < m.M ∧ j < m.M
  free : m.bc i = false ∧ m.bc j = false
  orifice : o < m.n_o
  src : m.Juo o = i
  dst : m.Jdo o = j
  ne : i ≠ j
  links : ∀ k, k < m.ix.NK → (m.Ju k ≠ i ∧ m.Jd k ≠ i) ∧ (m.Ju k ≠ j ∧ m.Jd k ≠ j)
  orifices : ∀ o', o' < m.n_o → o' ≠ o → (m.Juo o' ≠ i ∧ m.Jdo o' ≠ i) ∧ (m.Juo o' ≠ j ∧ m.Jdo o' ≠ j)
  weirs : ∀ w, w < m.n_w → (m.Juw w ≠ i ∧ m.Jdw w ≠ i) ∧ (m.Juw w ≠ j ∧ m.Jdw w ≠ j)
  pumps : ∀ p, p < m.n_p → (m.Jup p ≠ i ∧ m.Jdp p ≠ i) ∧ (m.Jup p ≠ j ∧ m.Jdp p ≠ j)

/-- The level at which both vessels hold what they hold together. -/
def common (i j : ℕ) (A B : ℝ) (s : Hyd) : ℝ := (A * s.H i + B * s.H j) / (A + B)

/-- A run of steps of size `dt` without inflow in which vessels `i`, `j` have the surfaces `A`, `B` and are joined by the submerged
orifice `o` of area `a` at setting `u`: the common level is above its crown, both first levels above its centre and both vessels
reach from there up to the higher level. If it is a one-way orifice, the water is higher on its upstream side. In no step does it
pass more than the higher vessel holds. What happens elsewhere in the network is not restricted. -/
structure VesselRun (m : Model) (i j o : ℕ) (A B a dt u : ℝ) (st : ℕ → Hyd) : Prop where
  vessels : Vessels m i j o
  consistent : m.Consistent
  g_pos : 0 < m.g
  a_pos : 0 < a
  Co_pos : 0 < m.Co o
  A_pos : 0 < A
  B_pos : 0 < B
  dt_pos : 0 < dt
  drowned : crown (m.orifice o) u < common i j A B (st 0)
  low : centre (m.orifice o) u < min ((st 0).H i) ((st 0).H j)
  floor : m.z_inv i ≤ centre (m.orifice o) u ∧ m.z_inv j ≤ centre (m.orifice o) u
  room : max ((st 0).H i) ((st 0).H j) ≤ min (m.z_inv i + m.max_depth i) (m.z_inv j + m.max_depth j)
  apart : (st 0).H i ≠ (st 0).H j
  way : (m.orifice o).unidir = true → (st 0).H j < (st 0).H i
  start : (st 0).Qo o = orificeRaw m.g a (m.Co o) ((st 0).H i) ((st 0).H j) u (m.orifice o)
  step : ∀ n, ∃ (geo : Geo) (inp : Inputs) (wk : Work) (co : Coef ℝ) (x : ℕ → ℝ), CleanWork m wk.mats ∧ geo.As i = A ∧
    geo.As j = B ∧ geo.Ao o = a ∧ inp.dt = dt ∧ inp.Q_in i = 0 ∧ inp.Q_in j = 0 ∧ inp.u_o o = u ∧
    dt * |orificeRaw m.g a (m.Co o) ((st (n + 1)).H i) ((st (n + 1)).H j) u (m.orifice o)|
      ≤ (if (st (n + 1)).H i > (st (n + 1)).H j then geo.V i else geo.V j) ∧
    Pass m geo inp wk (st n) (st n) co x ∧ st (n + 1) = m.advance geo inp wk (st n) co x

/-! ### One step -/

/-- The solver's heads of the two. -/
theorem vessel_balance (b : Vessels m i j o) (c : m.Consistent) (cw : CleanWork m wk.mats) (p : Pass m geo inp wk prev cur co x) :
    geo.As i / inp.dt * (x i - prev.H i) = inp.Q_in i - (m.oLin geo inp wk cur o).eval (x i) (x j) ∧
    geo.As j / inp.dt * (x j - prev.H j) = inp.Q_in j + (m.oLin geo inp wk cur o).eval (x i) (x j) := by
  have lin : ∀ e : ℕ, (∀ k, k < m.ix.NK → m.Ju k ≠ e ∧ m.Jd k ≠ e) →
      (m.net geo inp wk cur co).links.xiSum e = 0 ∧ (m.net geo inp wk cur co).links.inflow x e = 0 := by
    intro e h
    constructor
    · refine Finset.sum_eq_zero fun k hk => ?_
      have := h k (Finset.mem_range.mp hk)
      change (if m.Ju k = e then _ else _) + (if m.Jd k = e then _ else _) = _
      rw [if_neg this.1, if_neg this.2, add_zero]
    · refine Finset.sum_eq_zero fun k hk => ?_
      have := h k (Finset.mem_range.mp hk)
      change (if m.Jd k = e then _ else _) - (if m.Ju k = e then _ else _) = _
      rw [if_neg this.1, if_neg this.2, sub_zero]
  have we : ∀ e : ℕ, (∀ k, k < m.n_w → m.Juw k ≠ e ∧ m.Jdw k ≠ e) → (m.net geo inp wk cur co).weirs.inflow x e = 0 := by
    intro e h
    refine Finset.sum_eq_zero fun k hk => ?_
    have := h k (Finset.mem_range.mp hk)
    change (if m.Jdw k = e then _ else _) - (if m.Juw k = e then _ else _) = _
    rw [if_neg this.1, if_neg this.2, sub_zero]
  have pu : ∀ e : ℕ, (∀ k, k < m.n_p → m.Jup k ≠ e ∧ m.Jdp k ≠ e) → (m.net geo inp wk cur co).pumps.inflow x e = 0 := by
    intro e h
    refine Finset.sum_eq_zero fun k hk => ?_
    have := h k (Finset.mem_range.mp hk)
    change (if m.Jdp k = e then _ else _) - (if m.Jup k = e then _ else _) = _
    rw [if_neg this.1, if_neg this.2, sub_zero]
  have orf : ∀ e : ℕ, (∀ k, k < m.n_o → k ≠ o → m.Juo k ≠ e ∧ m.Jdo k ≠ e) → (m.net geo inp wk cur co).orifices.inflow x e
      = (if j = e then (m.oLin geo inp wk cur o).eval (x i) (x j) else 0) - if i = e then (m.oLin geo inp wk cur o).eval (x i) (x j) else 0 := by
    intro e h
    refine (Finset.sum_eq_single_of_mem o (Finset.mem_range.mpr b.orifice) ?_).trans ?_
    rotate_left
    · have ev : (m.oLin geo inp wk cur o).alpha * x (m.Juo o) + (m.oLin geo inp wk cur o).beta * x (m.Jdo o)
          + (m.oLin geo inp wk cur o).chi = (m.oLin geo inp wk cur o).eval (x i) (x j) := by rw [b.src, b.dst]; rfl
      change (if m.Jdo o = e then (m.oLin geo inp wk cur o).alpha * x (m.Juo o) + (m.oLin geo inp wk cur o).beta * x (m.Jdo o)
          + (m.oLin geo inp wk cur o).chi else 0) - (if m.Juo o = e then (m.oLin geo inp wk cur o).alpha * x (m.Juo o)
          + (m.oLin geo inp wk cur o).beta * x (m.Jdo o) + (m.oLin geo inp wk cur o).chi else 0) = _
      rw [ev, b.src, b.dst]
    · intro k hk ne
      have := h k (Finset.mem_range.mp hk) ne
      change (if m.Jdo k = e then _ else _) - (if m.Juo k = e then _ else _) = _
      rw [if_neg this.1, if_neg this.2, sub_zero]
  have s := (solves_iff (m.net geo inp wk cur co) inp.dt wk.mats cw.mats (wired c) prev.H inp.Q_in
    (inp.H_bc.getD cur.H) x).mp p.solve
  have hi := (s i b.lt.1).2 b.free.1
  have hj := (s j b.lt.2).2 b.free.2
  unfold Network.Balanced at hi hj
  rw [(lin i fun k hk => (b.links k hk).1).1, (lin i fun k hk => (b.links k hk).1).2, we i fun k hk => (b.weirs k hk).1,
    pu i fun k hk => (b.pumps k hk).1, orf i fun k hk ne => (b.orifices k hk ne).1, if_neg b.ne.symm, if_pos rfl, add_zero] at hi
  rw [(lin j fun k hk => (b.links k hk).2).1, (lin j fun k hk => (b.links k hk).2).2, we j fun k hk => (b.weirs k hk).2,
    pu j fun k hk => (b.pumps k hk).2, orf j fun k hk ne => (b.orifices k hk ne).2, if_neg b.ne, if_pos rfl, add_zero] at hj
  change geo.As i / inp.dt * (x i - prev.H i) = _ at hi
  change geo.As j / inp.dt * (x j - prev.H j) = _ at hj
  exact ⟨by linarith, by linarith⟩

/-- Drowned on both sides, the coefficients are those of the difference of the levels. -/
theorem orificeCoef_drowned {old : Lin} {γ Hu Hd u : ℝ} {o : Orifice} (hi : crown o u < max Hu Hd) (lo : centre o u < min Hu Hd)
    (way : o.unidir = true → Hd < Hu) : orificeCoef old γ Hu Hd u o = ⟨γ, -γ, 0⟩ := by
  unfold crown Orifice.opening Orifice.bottom at hi
  unfold centre Orifice.opening Orifice.bottom at lo
  have c3 : ¬ (Hd ≥ Hu ∧ o.unidir = true) := fun h => absurd h.1 (not_le.mpr (way h.2))
  have c0 : omega Hu Hd * Hu + (1 - omega Hu Hd) * Hd > o.z_o + o.z_inv + (o.tau * o.y_max * u) := by
    unfold omega
    split_ifs with h
    · rw [max_eq_left h] at hi; linarith
    · rw [max_eq_right (not_le.mp h).le] at hi; linarith
  have c1 : (1 - omega Hu Hd) * Hu + omega Hu Hd * Hd > o.z_o + o.z_inv + (o.tau * o.y_max * u / 2) := by
    unfold omega
    split_ifs with h
    · rw [min_eq_right h] at lo; linarith
    · rw [min_eq_left (not_le.mp h).le] at lo; linarith
  simp only [orificeCoef, c0, c1, c3, not_true, and_true, and_false, false_and, or_self, if_true, if_false]

theorem orificeRaw_drowned {g Ao Co Hu Hd u : ℝ} {o : Orifice} (hg : 0 < g) (ha : 0 < Ao) (hC : 0 < Co) (hi : crown o u < max Hu Hd)
    (lo : centre o u < min Hu Hd) (way : o.unidir = true → Hd < Hu) :
    |orificeRaw g Ao Co Hu Hd u o| = Co * Ao * Real.sqrt (2 * g) * Real.sqrt |Hu - Hd| := by
  have s : |sgn Hu Hd| = 1 := by unfold sgn; split_ifs <;> norm_num
  unfold orificeRaw
  rw [orificeCoef_drowned hi lo way]
  dsimp only
  rw [show 2 * g * Co ^ 2 * Ao ^ 2 * Hu + -(2 * g * Co ^ 2 * Ao ^ 2) * Hd + 0 = (Co * Ao) ^ 2 * (2 * g) * (Hu - Hd) by ring,
    abs_mul, s, one_mul, abs_of_nonneg (Real.sqrt_nonneg _), abs_mul, abs_of_nonneg (show 0 ≤ (Co * Ao) ^ 2 * (2 * g) by positivity),
    Real.sqrt_mul (by positivity), Real.sqrt_mul (by positivity), Real.sqrt_sq (by positivity)]

variable {A B a dt u : ℝ} {st : ℕ → Hyd}

/-- What the orifice does to a difference of levels of one metre in one step. -/
def coupling (m : Model) (o : ℕ) (A B a dt : ℝ) : ℝ := dt * (1 / A + 1 / B) * (m.Co o * a * Real.sqrt (2 * m.g))

theorem VesselRun.coupling_pos (R : VesselRun m i j o A B a dt u st) : 0 < coupling m o A B a dt := by
  have := R.A_pos
  have := R.B_pos
  have := R.dt_pos
  have := R.a_pos
  have := R.Co_pos
  have := R.g_pos
  unfold coupling
  positivity

/-- What a step keeps. -/
structure Between (m : Model) (i j o : ℕ) (A B a u : ℝ) (s0 s : Hyd) : Prop where
  same : common i j A B s = common i j A B s0
  low : min (s0.H i) (s0.H j) ≤ min (s.H i) (s.H j)
  high : max (s.H i) (s.H j) ≤ max (s0.H i) (s0.H j)
  apart : s.H i ≠ s.H j
  side : (s.H j < s.H i ↔ s0.H j < s0.H i)
  flow : |s.Qo o| = m.Co o * a * Real.sqrt (2 * m.g) * Real.sqrt |s.H i - s.H j|

theorem common_mem {A B : ℝ} (hA : 0 < A) (hB : 0 < B) (s : Hyd) :
    min (s.H i) (s.H j) ≤ common i j A B s ∧ common i j A B s ≤ max (s.H i) (s.H j) := by
  unfold common
  constructor
  · rw [le_div_iff₀ (by positivity)]
    have h1 := mul_le_mul_of_nonneg_left (min_le_left (s.H i) (s.H j)) hA.le
    have h2 := mul_le_mul_of_nonneg_left (min_le_right (s.H i) (s.H j)) hB.le
    linarith
  · rw [div_le_iff₀ (by positivity)]
    have h1 := mul_le_mul_of_nonneg_left (le_max_left (s.H i) (s.H j)) hA.le
    have h2 := mul_le_mul_of_nonneg_left (le_max_right (s.H i) (s.H j)) hB.le
    linarith

/-- New heads `y`, `z` from `h`, `k` under an exchange of `ρ` per metre of the new difference. -/
theorem exchange {A B dt ρ h k y z : ℝ} (hA : 0 < A) (hB : 0 < B) (hdt : 0 < dt) (hρ : 0 ≤ ρ)
    (e1 : A / dt * (y - h) = -(ρ * (y - z))) (e2 : B / dt * (z - k) = ρ * (y - z)) :
    A * y + B * z = A * h + B * k ∧ (y - z) * (1 + dt * (1 / A + 1 / B) * ρ) = h - k ∧
      min h k ≤ min y z ∧ max y z ≤ max h k := by
  have f1 : A * (y - h) = -(dt * ρ * (y - z)) := by field_simp at e1; linarith
  have f2 : B * (z - k) = dt * ρ * (y - z) := by field_simp at e2; linarith
  have D : (y - z) * (1 + dt * (1 / A + 1 / B) * ρ) = h - k := by
    have g1 : y - h = -(dt * ρ * (y - z)) / A := by rw [eq_div_iff hA.ne']; linarith
    have g2 : z - k = dt * ρ * (y - z) / B := by rw [eq_div_iff hB.ne']; linarith
    have : (y - z) * (1 + dt * (1 / A + 1 / B) * ρ) = (y - z) + dt * ρ * (y - z) / A + dt * ρ * (y - z) / B := by ring
    rw [this]
    have : -(dt * ρ * (y - z)) / A = -(dt * ρ * (y - z) / A) := neg_div _ _
    linarith
  refine ⟨by linarith, D, ?_⟩
  have d0 : 0 ≤ dt * ρ := by positivity
  have F : 0 < 1 + dt * (1 / A + 1 / B) * ρ := by positivity
  rcases le_total k h with l | l
  · have yz : 0 ≤ y - z := by
      by_contra hn
      have := mul_neg_of_neg_of_pos (not_le.mp hn) F
      linarith
    have p := mul_nonneg d0 yz
    have hy : y ≤ h := by
      by_contra hn
      have := mul_pos hA (sub_pos.mpr (not_le.mp hn))
      linarith
    have hz : k ≤ z := by
      by_contra hn
      have := mul_neg_of_pos_of_neg hB (sub_neg.mpr (not_le.mp hn))
      linarith
    rw [min_eq_right l, max_eq_left l]
    exact ⟨le_min (by linarith) hz, max_le hy (by linarith)⟩
  · have yz : y - z ≤ 0 := by
      by_contra hn
      have := mul_pos (not_le.mp hn) F
      linarith
    have p := mul_nonpos_of_nonneg_of_nonpos d0 yz
    have hy : h ≤ y := by
      by_contra hn
      have := mul_neg_of_pos_of_neg hA (sub_neg.mpr (not_le.mp hn))
      linarith
    have hz : z ≤ k := by
      by_contra hn
      have := mul_pos hB (sub_pos.mpr (not_le.mp hn))
      linarith
    rw [min_eq_left l, max_eq_right l]
    exact ⟨le_min hy (by linarith), max_le (by linarith) hz⟩

/-- One step. -/
theorem vessel_next (R : VesselRun m i j o A B a dt u st) (n : ℕ) (b : Between m i j o A B a u (st 0) (st n)) :
    Between m i j o A B a u (st 0) (st (n + 1)) ∧
      ((st (n + 1)).H i - (st (n + 1)).H j) * (1 + coupling m o A B a dt / Real.sqrt |(st n).H i - (st n).H j|)
        = (st n).H i - (st n).H j ∧
      min ((st n).H i) ((st n).H j) ≤ min ((st (n + 1)).H i) ((st (n + 1)).H j) ∧
      max ((st (n + 1)).H i) ((st (n + 1)).H j) ≤ max ((st n).H i) ((st n).H j) := by
  have A0 := R.A_pos
  have B0 := R.B_pos
  have d0 := R.dt_pos
  have a0 := R.a_pos
  have C0 := R.Co_pos
  have g0 := R.g_pos
  have q0 : 0 < m.Co o * a * Real.sqrt (2 * m.g) := by positivity
  have dif : 0 < |(st n).H i - (st n).H j| := abs_pos.mpr (sub_ne_zero.mpr b.apart)
  have sq := Real.sqrt_pos.mpr dif
  have hi : crown (m.orifice o) u < max ((st n).H i) ((st n).H j) :=
    R.drowned.trans_le (b.same ▸ (common_mem A0 B0 (st n)).2)
  have lo : centre (m.orifice o) u < min ((st n).H i) ((st n).H j) := R.low.trans_le b.low
  have way : (m.orifice o).unidir = true → (st n).H j < (st n).H i := fun h => b.side.mpr (R.way h)
  obtain ⟨geo, inp, wk, co, x, cw, eA, eB, ea, edt, qi, qj, eu, hV, pa, es⟩ := R.step n
  obtain ⟨b1, b2⟩ := vessel_balance R.vessels R.consistent cw pa
  have z : (m.oLin geo inp wk (st n) o).eval (x i) (x j)
      = m.Co o * a * Real.sqrt (2 * m.g) / Real.sqrt |(st n).H i - (st n).H j| * (x i - x j) := by
    unfold Model.oLin orificeLin
    rw [R.vessels.src, R.vessels.dst, eu, ea, orificeCoef_drowned hi lo way, gammaO, b.flow, safeDivide_eq]
    have e2 : 2 * m.g = Real.sqrt (2 * m.g) * Real.sqrt (2 * m.g) := (Real.mul_self_sqrt (by positivity)).symm
    have s2 : 0 < Real.sqrt (2 * m.g) := Real.sqrt_pos.mpr (by positivity)
    unfold Lin.eval
    dsimp only
    have e3 : 2 * m.g * m.Co o ^ 2 * a ^ 2 / (m.Co o * a * Real.sqrt (2 * m.g) * Real.sqrt |(st n).H i - (st n).H j|)
        = m.Co o * a * Real.sqrt (2 * m.g) / Real.sqrt |(st n).H i - (st n).H j| := by
      rw [div_eq_div_iff (by positivity) sq.ne']
      calc 2 * m.g * m.Co o ^ 2 * a ^ 2 * √|(st n).H i - (st n).H j|
          = (2 * m.g) * (m.Co o ^ 2 * a ^ 2 * √|(st n).H i - (st n).H j|) := by ring
        _ = (√(2 * m.g) * √(2 * m.g)) * (m.Co o ^ 2 * a ^ 2 * √|(st n).H i - (st n).H j|) := by rw [← e2]
        _ = _ := by ring
    rw [e3]; ring
  rw [eA, edt, qi, z, zero_sub] at b1
  rw [eB, edt, qj, z, zero_add] at b2
  have ex := exchange A0 B0 d0 (by positivity) b1 b2
  obtain ⟨keep, dd, mn, mx⟩ := ex
  have fl := R.floor
  have rm := R.room
  have yi : (st (n + 1)).H i = x i := by
    rw [es]
    change min (max (x i) (m.z_inv i)) (m.z_inv i + m.max_depth i) = _
    have l1 := min_le_left (x i) (x j)
    have l2 := le_max_left (x i) (x j)
    have l3 := min_le_left (m.z_inv i + m.max_depth i) (m.z_inv j + m.max_depth j)
    rw [max_eq_left (by linarith [fl.1]), min_eq_left (by linarith [b.high])]
  have yj : (st (n + 1)).H j = x j := by
    rw [es]
    change min (max (x j) (m.z_inv j)) (m.z_inv j + m.max_depth j) = _
    have l1 := min_le_right (x i) (x j)
    have l2 := le_max_right (x i) (x j)
    have l3 := min_le_right (m.z_inv i + m.max_depth i) (m.z_inv j + m.max_depth j)
    rw [max_eq_left (by linarith [fl.2]), min_eq_left (by linarith [b.high])]
  have F : 0 < 1 + coupling m o A B a dt / Real.sqrt |(st n).H i - (st n).H j| := by
    have := R.coupling_pos
    positivity
  have dd' : (x i - x j) * (1 + coupling m o A B a dt / Real.sqrt |(st n).H i - (st n).H j|) = (st n).H i - (st n).H j := by
    refine Eq.trans ?_ dd; unfold coupling; ring
  have sideN : x j < x i ↔ (st n).H j < (st n).H i := by
    rw [← sub_pos (b := x j), ← sub_pos (b := (st n).H j)]
    constructor
    · intro h
      exact (mul_pos h F).trans_eq dd'
    · intro h
      exact (mul_pos_iff_of_pos_right F).mp (h.trans_eq dd'.symm)
  have ne : x i ≠ x j := by
    intro e
    rw [e, sub_self, zero_mul] at dd'
    exact b.apart (by linarith)
  have sameC : common i j A B (st (n + 1)) = common i j A B (st 0) := by
    rw [← b.same]; unfold common; rw [yi, yj, keep]
  have side' : (st (n + 1)).H j < (st (n + 1)).H i ↔ (st 0).H j < (st 0).H i := by rw [yi, yj, sideN]; exact b.side
  rw [← yi, ← yj] at mn mx dd'
  have hi' : crown (m.orifice o) u < max ((st (n + 1)).H i) ((st (n + 1)).H j) :=
    R.drowned.trans_le (sameC ▸ (common_mem A0 B0 (st (n + 1))).2)
  have lo' : centre (m.orifice o) u < min ((st (n + 1)).H i) ((st (n + 1)).H j) := R.low.trans_le (b.low.trans mn)
  have way' : (m.orifice o).unidir = true → (st (n + 1)).H j < (st (n + 1)).H i := fun h => side'.mpr (R.way h)
  have raw := orificeRaw_drowned g0 a0 C0 hi' lo' way'
  have e : (st (n + 1)).Qo o = orificeFlow m.g (geo.Ao o) (m.Co o) ((st (n + 1)).H (m.Juo o)) ((st (n + 1)).H (m.Jdo o))
      (inp.u_o o) (geo.V (m.Juo o)) (geo.V (m.Jdo o)) inp.dt (m.orifice o) := by rw [es]; rfl
  have fl' : |(st (n + 1)).Qo o| = m.Co o * a * Real.sqrt (2 * m.g) * Real.sqrt |(st (n + 1)).H i - (st (n + 1)).H j| := by
    rw [← raw, e, R.vessels.src, R.vessels.dst, ea, eu, edt, orificeFlow]
    congr 1
    refine orificeLimit_id ?_
    rw [le_div_iff₀ d0, mul_comm]
    exact hV
  exact ⟨⟨sameC, b.low.trans mn, mx.trans b.high, by rw [yi, yj]; exact ne, side', fl'⟩, dd', mn, mx⟩

theorem vessel_all (R : VesselRun m i j o A B a dt u st) (n : ℕ) : Between m i j o A B a u (st 0) (st n) := by
  induction n with
  | zero =>
    refine ⟨rfl, le_rfl, le_rfl, R.apart, Iff.rfl, ?_⟩
    rw [R.start]
    exact orificeRaw_drowned R.g_pos R.a_pos R.Co_pos (R.drowned.trans_le (common_mem R.A_pos R.B_pos _).2) R.low R.way
  | succ n ih => exact (vessel_next R n ih).1

/-! ### C194 -/

/-- **C194 (one way).** The higher level falls and the lower one rises, in every step, and the water never passes back: the higher
vessel stays the higher one. The two hold the same together throughout. -/
theorem C194_oneway (R : VesselRun m i j o A B a dt u st) (n : ℕ) :
    A * (st n).H i + B * (st n).H j = A * (st 0).H i + B * (st 0).H j ∧
    ((st 0).H j < (st 0).H i → (st (n + 1)).H j < (st (n + 1)).H i ∧ (st (n + 1)).H i < (st n).H i ∧ (st n).H j < (st (n + 1)).H j) ∧
    ((st 0).H i < (st 0).H j → (st (n + 1)).H i < (st (n + 1)).H j ∧ (st (n + 1)).H j < (st n).H j ∧ (st n).H i < (st (n + 1)).H i) := by
  have A0 := R.A_pos
  have B0 := R.B_pos
  have b := vessel_all R n
  obtain ⟨b', dd, -, -⟩ := vessel_next R n b
  have dif : 0 < |(st n).H i - (st n).H j| := abs_pos.mpr (sub_ne_zero.mpr b.apart)
  have sq := Real.sqrt_pos.mpr dif
  have κ := R.coupling_pos
  have F : 0 < coupling m o A B a dt / Real.sqrt |(st n).H i - (st n).H j| := by positivity
  have s0 := b.same
  have s1 := b'.same
  unfold common at s0 s1
  rw [div_left_inj' (by positivity)] at s0 s1
  refine ⟨s0, fun h => ?_, fun h => ?_⟩
  · have h' := b'.side.mpr h
    have l : (st (n + 1)).H i - (st (n + 1)).H j < (st n).H i - (st n).H j := by
      have := mul_pos (sub_pos.mpr h') F
      rw [mul_add, mul_one] at dd
      linarith
    have k : A * ((st (n + 1)).H i - (st n).H i) = -(B * ((st (n + 1)).H j - (st n).H j)) := by linarith
    have up : (st n).H j < (st (n + 1)).H j := by
      by_contra hn
      have := mul_nonpos_of_nonneg_of_nonpos B0.le (sub_nonpos.mpr (not_lt.mp hn))
      have := nonneg_of_mul_nonneg_right (show 0 ≤ A * ((st (n + 1)).H i - (st n).H i) by linarith) A0
      linarith
    refine ⟨h', ?_, up⟩
    have := mul_pos B0 (sub_pos.mpr up)
    by_contra hn
    have := mul_nonneg A0.le (sub_nonneg.mpr (not_lt.mp hn))
    linarith
  · have h' : (st (n + 1)).H i < (st (n + 1)).H j :=
      lt_of_le_of_ne (not_lt.mp fun c => absurd (b'.side.mp c) (not_lt.mpr h.le)) b'.apart
    have l : (st n).H i - (st n).H j < (st (n + 1)).H i - (st (n + 1)).H j := by
      have := mul_neg_of_neg_of_pos (sub_neg.mpr h') F
      rw [mul_add, mul_one] at dd
      linarith
    have k : A * ((st (n + 1)).H i - (st n).H i) = -(B * ((st (n + 1)).H j - (st n).H j)) := by linarith
    have up : (st (n + 1)).H j < (st n).H j := by
      by_contra hn
      have := mul_nonneg B0.le (sub_nonneg.mpr (not_lt.mp hn))
      have := nonpos_of_mul_nonpos_right (show A * ((st (n + 1)).H i - (st n).H i) ≤ 0 by linarith) A0
      linarith
    refine ⟨h', up, ?_⟩
    have := mul_neg_of_pos_of_neg B0 (sub_neg.mpr up)
    by_contra hn
    have := mul_nonpos_of_nonneg_of_nonpos A0.le (sub_nonpos.mpr (not_lt.mp hn))
    linarith

/-- **C194 (rate).** The difference of the levels shrinks at least geometrically, whatever the step. -/
theorem C194_rate (R : VesselRun m i j o A B a dt u st) (n : ℕ) :
    |(st n).H i - (st n).H j| ≤
      (1 / (1 + coupling m o A B a dt / Real.sqrt |(st 0).H i - (st 0).H j|)) ^ n * |(st 0).H i - (st 0).H j| := by
  have κ := R.coupling_pos
  have d0 : 0 < |(st 0).H i - (st 0).H j| := abs_pos.mpr (sub_ne_zero.mpr R.apart)
  have s0 := Real.sqrt_pos.mpr d0
  have main : |(st n).H i - (st n).H j| ≤ |(st 0).H i - (st 0).H j| ∧ |(st n).H i - (st n).H j| ≤
      (1 / (1 + coupling m o A B a dt / Real.sqrt |(st 0).H i - (st 0).H j|)) ^ n * |(st 0).H i - (st 0).H j| := by
    induction n with
    | zero => simp
    | succ n ih =>
      obtain ⟨i1, i2⟩ := ih
      have b := vessel_all R n
      obtain ⟨-, dd, -, -⟩ := vessel_next R n b
      have dif : 0 < |(st n).H i - (st n).H j| := abs_pos.mpr (sub_ne_zero.mpr b.apart)
      have sq := Real.sqrt_pos.mpr dif
      have le := Real.sqrt_le_sqrt i1
      have F0 : 0 < 1 + coupling m o A B a dt / Real.sqrt |(st 0).H i - (st 0).H j| := by positivity
      have F1 : 0 < 1 + coupling m o A B a dt / Real.sqrt |(st n).H i - (st n).H j| := by positivity
      have F : 1 + coupling m o A B a dt / Real.sqrt |(st 0).H i - (st 0).H j|
          ≤ 1 + coupling m o A B a dt / Real.sqrt |(st n).H i - (st n).H j| := by gcongr
      have e : |(st (n + 1)).H i - (st (n + 1)).H j| * (1 + coupling m o A B a dt / Real.sqrt |(st n).H i - (st n).H j|)
          = |(st n).H i - (st n).H j| := by
        refine Eq.trans ?_ (congrArg abs dd); rw [abs_mul, abs_of_pos F1]
      have st1 : |(st (n + 1)).H i - (st (n + 1)).H j| * (1 + coupling m o A B a dt / Real.sqrt |(st 0).H i - (st 0).H j|)
          ≤ |(st n).H i - (st n).H j| := by
        exact (mul_le_mul_of_nonneg_left F (abs_nonneg _)).trans e.le
      constructor
      · refine le_trans ?_ (st1.trans i1)
        exact le_mul_of_one_le_right (abs_nonneg _) (by have : 0 < coupling m o A B a dt / √|(st 0).H i - (st 0).H j| := by positivity
                                                        linarith)
      · rw [pow_succ', mul_assoc, one_div_mul_eq_div, le_div_iff₀ F0]
        exact st1.trans i2
  exact main.2

/-- **C194 (levelling out).** Both levels tend to the common one. -/
theorem C194_levels_out (R : VesselRun m i j o A B a dt u st) :
    Tendsto (fun n => (st n).H i) atTop (𝓝 (common i j A B (st 0))) ∧
      Tendsto (fun n => (st n).H j) atTop (𝓝 (common i j A B (st 0))) := by
  have A0 := R.A_pos
  have B0 := R.B_pos
  have κ := R.coupling_pos
  have d0 : 0 < |(st 0).H i - (st 0).H j| := abs_pos.mpr (sub_ne_zero.mpr R.apart)
  have s0 := Real.sqrt_pos.mpr d0
  have F : 0 < coupling m o A B a dt / Real.sqrt |(st 0).H i - (st 0).H j| := by positivity
  have t : Tendsto (fun n => (st n).H i - (st n).H j) atTop (𝓝 0) := by
    rw [tendsto_zero_iff_abs_tendsto_zero]
    have z := (tendsto_pow_atTop_nhds_zero_of_lt_one (r := 1 / (1 + coupling m o A B a dt / Real.sqrt |(st 0).H i - (st 0).H j|))
      (by positivity) (by rw [div_lt_one (by positivity)]; linarith)).mul_const |(st 0).H i - (st 0).H j|
    rw [zero_mul] at z
    exact squeeze_zero (fun _ => abs_nonneg _) (fun n => C194_rate R n) z
  have ei : ∀ n, (st n).H i = common i j A B (st 0) + B / (A + B) * ((st n).H i - (st n).H j) := by
    intro n
    rw [← (vessel_all R n).same]
    unfold common
    field_simp
    ring
  have ej : ∀ n, (st n).H j = common i j A B (st 0) - A / (A + B) * ((st n).H i - (st n).H j) := by
    intro n
    rw [← (vessel_all R n).same]
    unfold common
    field_simp
    ring
  constructor
  · have := (t.const_mul (B / (A + B))).const_add (common i j A B (st 0))
    rw [mul_zero, add_zero] at this
    exact this.congr fun n => (ei n).symm
  · have := (t.const_mul (A / (A + B))).const_sub (common i j A B (st 0))
    rw [mul_zero, sub_zero] at this
    exact this.congr fun n => (ej n).symm

/-- **C194 (check valve).** A one-way orifice with the water as high or higher on its downstream side passes nothing: both levels stay
where they are and the new flow is 0. -/
theorem C194_valve (b : Vessels m i j o) (c : m.Consistent) (cw : CleanWork m wk.mats) (p : Pass m geo inp wk prev prev co x)
    (hA : 0 < geo.As i) (hB : 0 < geo.As j) (hdt : 0 < inp.dt) (qi : inp.Q_in i = 0) (qj : inp.Q_in j = 0)
    (oneway : (m.orifice o).unidir = true) (back : prev.H i ≤ prev.H j) (fi : m.z_inv i ≤ prev.H i) (fj : m.z_inv j ≤ prev.H j)
    (ri : prev.H i ≤ m.z_inv i + m.max_depth i) (rj : prev.H j ≤ m.z_inv j + m.max_depth j) :
    (m.advance geo inp wk prev co x).H i = prev.H i ∧ (m.advance geo inp wk prev co x).H j = prev.H j ∧
      (m.advance geo inp wk prev co x).Qo o = 0 := by
  have z : ∀ (old : Lin) (γ Hu Hd u : ℝ), Hu ≤ Hd → orificeCoef old γ Hu Hd u (m.orifice o) = ⟨0, 0, 0⟩ := by
    intro old γ Hu Hd u h
    have c3 : Hd ≥ Hu ∧ (m.orifice o).unidir = true := ⟨h, oneway⟩
    simp only [orificeCoef, c3, and_self, or_true, if_true]
  obtain ⟨b1, b2⟩ := vessel_balance b c cw p
  have e : (m.oLin geo inp wk prev o).eval (x i) (x j) = 0 := by
    unfold Model.oLin orificeLin
    rw [b.src, b.dst, z _ _ _ _ _ back]
    simp [Lin.eval]
  rw [e, qi, sub_zero] at b1
  rw [e, qj, add_zero] at b2
  have xi : x i = prev.H i := by
    rcases mul_eq_zero.mp b1 with h | h
    · exact absurd h (by positivity)
    · linarith
  have xj : x j = prev.H j := by
    rcases mul_eq_zero.mp b2 with h | h
    · exact absurd h (by positivity)
    · linarith
  have yi : (m.advance geo inp wk prev co x).H i = prev.H i := by
    change min (max (x i) (m.z_inv i)) (m.z_inv i + m.max_depth i) = _
    rw [xi, max_eq_left fi, min_eq_left ri]
  have yj : (m.advance geo inp wk prev co x).H j = prev.H j := by
    change min (max (x j) (m.z_inv j)) (m.z_inv j + m.max_depth j) = _
    rw [xj, max_eq_left fj, min_eq_left rj]
  refine ⟨yi, yj, ?_⟩
  change orificeFlow m.g (geo.Ao o) (m.Co o) ((m.advance geo inp wk prev co x).H (m.Juo o)) ((m.advance geo inp wk prev co x).H (m.Jdo o))
      (inp.u_o o) (geo.V (m.Juo o)) (geo.V (m.Jdo o)) inp.dt (m.orifice o) = 0
  rw [b.src, b.dst, yi, yj, orificeFlow]
  unfold orificeRaw
  rw [z _ _ _ _ _ back]
  simp [orificeLimit, npSign]

/-! ### Non-vacuity -/

/-- Two vessels of 3 m² joined by an orifice of 1 m. -/
def vesselModel : Model := { outletModel with bc := fun _ => false, orifice := fun _ => ⟨0, 0, 1, 1, false⟩ }

theorem raw_bound {y z : ℝ} (hy : 0 ≤ y ∧ y ≤ 10) (hz : 0 ≤ z ∧ z ≤ 10) :
    |orificeRaw 2 1 (1 / 2) y z 1 ⟨0, 0, 1, 1, false⟩| ≤ 50 := by
  have s : |sgn y z| = 1 := by unfold sgn; split_ifs <;> norm_num
  unfold orificeRaw
  dsimp only
  rw [abs_mul, s, one_mul, abs_of_nonneg (Real.sqrt_nonneg _), Real.sqrt_le_left (by norm_num), abs_le]
  obtain ⟨y0, y1⟩ := hy
  obtain ⟨z0, z1⟩ := hz
  simp only [orificeCoef, omega, sgn]
  constructor <;> split_ifs <;> norm_num <;> linarith

theorem vessel_run (h k : ℝ) (hk : 1 < k) (hh : k < h) (h1 : h ≤ 10) :
    ∃ st, VesselRun vesselModel 0 1 0 3 3 1 20 1 st ∧ (st 0).H 0 = h ∧ (st 0).H 1 = k := by
  have c : vesselModel.Consistent := by
    refine ⟨⟨fun _ h => absurd h (Nat.not_lt_zero _), fun _ _ h => absurd h (Nat.not_lt_zero _),
      fun _ _ h => absurd h (Nat.not_lt_zero _)⟩, fun _ h => absurd h (Nat.not_lt_zero _), fun _ h => absurd h (Nat.not_lt_zero _),
      ?_, ?_, ?_, ?_, ?_, ?_, ?_, ?_⟩ <;> simp [vesselModel, outletModel, exModel]
  have ps : PhysicalStep vesselModel outletGeo (basinInp 20 0) := by
    constructor <;> intros <;> norm_num [vesselModel, outletModel, outletGeo, basinInp, overflowInp, exModel, exGeo, exInp]
  have cw : CleanWork vesselModel exWork.mats :=
    ⟨⟨fun _ _ _ _ => rfl⟩, ⟨fun _ _ _ _ => rfl, fun _ _ => rfl⟩, ⟨fun _ _ _ _ => rfl, fun _ _ => rfl⟩,
      ⟨fun _ _ _ _ => rfl, fun _ _ => rfl⟩⟩
  have ex : ∀ s : Hyd, ∃ co x, Pass vesselModel outletGeo (basinInp 20 0) exWork s s co x := fun s =>
    C06_step_exists c ps cw fun _ h => absurd h (Nat.not_lt_zero _)
  choose co x pa using ex
  set st : ℕ → Hyd := fun n => Nat.rec
    { overflowAt 0 0 with H := fun i => if i = 0 then h else k, Qo := fun _ => orificeRaw 2 1 (1 / 2) h k 1 ⟨0, 0, 1, 1, false⟩ }
    (fun _ s => vesselModel.advance outletGeo (basinInp 20 0) exWork s (co s) (x s)) n with hst
  have H0 : (st 0).H 0 = h := rfl
  have H1 : (st 0).H 1 = k := rfl
  have ce : centre (vesselModel.orifice 0) 1 = 1 / 2 := by norm_num [centre, Orifice.bottom, Orifice.opening, vesselModel]
  have cr : crown (vesselModel.orifice 0) 1 = 1 := by norm_num [crown, Orifice.bottom, Orifice.opening, vesselModel]
  have zi : ∀ i, vesselModel.z_inv i = 0 := fun _ => rfl
  have md : ∀ i, vesselModel.max_depth i = 10 := fun _ => rfl
  refine ⟨st, ⟨?_, c, by norm_num [vesselModel, outletModel], by norm_num, by norm_num [vesselModel, outletModel], by norm_num, by norm_num,
    by norm_num, ?_, ?_, ?_, ?_, ?_, ?_, rfl, fun n => ?_⟩, rfl, rfl⟩
  · refine ⟨by norm_num [vesselModel, outletModel, exModel], ⟨rfl, rfl⟩, by norm_num [vesselModel, outletModel, exModel], rfl, rfl,
      by norm_num, fun k hk => absurd hk (Nat.not_lt_zero _), fun o' ho ne => ?_,
      fun k hk => absurd hk (Nat.not_lt_zero _), fun k hk => absurd hk (Nat.not_lt_zero _)⟩
    simp [vesselModel, outletModel, exModel] at ho
    omega
  · rw [cr]; unfold common; rw [H0, H1]; linarith
  · rw [ce, H0, H1]; exact lt_min (by linarith) (by linarith)
  · rw [ce, zi, zi]; norm_num
  · rw [H0, H1, zi, zi, md, md, min_self]; exact max_le (by linarith) (by linarith)
  · rw [H0, H1]; exact hh.ne'
  · intro e; simp [vesselModel] at e
  · refine ⟨outletGeo, basinInp 20 0, exWork, co (st n), x (st n), cw, rfl, rfl, rfl, rfl, ?_, ?_, rfl, ?_, pa (st n), rfl⟩
    · simp [basinInp, overflowInp]
    · simp [basinInp, overflowInp]
    have bd : ∀ i, 0 ≤ (st (n + 1)).H i ∧ (st (n + 1)).H i ≤ 10 := by
      intro i
      have hH : (st (n + 1)).H i = min (max (x (st n) i) 0) (0 + 10) := rfl
      rw [hH]
      exact ⟨le_min (le_max_right _ _) (by norm_num), (min_le_right _ _).trans (by norm_num)⟩
    have r : |orificeRaw vesselModel.g 1 (vesselModel.Co 0) ((st (n + 1)).H 0) ((st (n + 1)).H 1) 1 (vesselModel.orifice 0)| ≤ 50 :=
      raw_bound (bd 0) (bd 1)
    have V : ∀ i, outletGeo.V i = 1000 := fun _ => rfl
    rw [V, V, ite_self]
    linarith

/-- From levels of 9 and 4, with a step in which all of the difference could pass several times, both tend to 6.5. -/
example : ∃ st, VesselRun vesselModel 0 1 0 3 3 1 20 1 st ∧ (st 0).H 0 = 9 ∧ (st 0).H 1 = 4 ∧
    Tendsto (fun n => (st n).H 0) atTop (𝓝 6.5) ∧ Tendsto (fun n => (st n).H 1) atTop (𝓝 6.5) := by
  obtain ⟨st, R, e, f⟩ := vessel_run 9 4 (by norm_num) (by norm_num) (by norm_num)
  have t := C194_levels_out R
  rw [common, e, f] at t
  norm_num at t ⊢
  exact ⟨st, R, e, f, t⟩

/-- A one-way orifice between levels of 2 and 5. -/
example : ∃ co x, Pass { vesselModel with orifice := fun _ => ⟨0, 0, 1, 1, true⟩ } outletGeo (basinInp 20 0) exWork
      { overflowAt 0 0 with H := fun i => if i = 0 then 2 else 5 } { overflowAt 0 0 with H := fun i => if i = 0 then 2 else 5 } co x ∧
    (Model.advance { vesselModel with orifice := fun _ => ⟨0, 0, 1, 1, true⟩ } outletGeo (basinInp 20 0) exWork
      { overflowAt 0 0 with H := fun i => if i = 0 then 2 else 5 } co x).H 1 = 5 := by
  have c : Model.Consistent { vesselModel with orifice := fun _ => ⟨0, 0, 1, 1, true⟩ } := by
    refine ⟨⟨fun _ h => absurd h (Nat.not_lt_zero _), fun _ _ h => absurd h (Nat.not_lt_zero _),
      fun _ _ h => absurd h (Nat.not_lt_zero _)⟩, fun _ h => absurd h (Nat.not_lt_zero _), fun _ h => absurd h (Nat.not_lt_zero _),
      ?_, ?_, ?_, ?_, ?_, ?_, ?_, ?_⟩ <;> simp [vesselModel, outletModel, exModel]
  have ps : PhysicalStep { vesselModel with orifice := fun _ => ⟨0, 0, 1, 1, true⟩ } outletGeo (basinInp 20 0) := by
    constructor <;> intros <;> norm_num [vesselModel, outletModel, outletGeo, basinInp, overflowInp, exModel, exGeo, exInp]
  have cw : CleanWork { vesselModel with orifice := fun _ => ⟨0, 0, 1, 1, true⟩ } exWork.mats :=
    ⟨⟨fun _ _ _ _ => rfl⟩, ⟨fun _ _ _ _ => rfl, fun _ _ => rfl⟩, ⟨fun _ _ _ _ => rfl, fun _ _ => rfl⟩,
      ⟨fun _ _ _ _ => rfl, fun _ _ => rfl⟩⟩
  obtain ⟨co, x, p⟩ := C06_step_exists (prev := { overflowAt 0 0 with H := fun i => if i = 0 then 2 else 5 })
    (cur := { overflowAt 0 0 with H := fun i => if i = 0 then 2 else 5 }) c ps cw fun _ h => absurd h (Nat.not_lt_zero _)
  refine ⟨co, x, p, ?_⟩
  have b : Vessels { vesselModel with orifice := fun _ => ⟨0, 0, 1, 1, true⟩ } 0 1 0 := by
    refine ⟨by norm_num [vesselModel, outletModel, exModel], ⟨rfl, rfl⟩, by norm_num [vesselModel, outletModel, exModel], rfl, rfl,
      by norm_num, fun k hk => absurd hk (Nat.not_lt_zero _), fun o' ho ne => ?_,
      fun k hk => absurd hk (Nat.not_lt_zero _), fun k hk => absurd hk (Nat.not_lt_zero _)⟩
    simp [vesselModel, outletModel, exModel] at ho
    omega
  have := (C194_valve b c cw p (by norm_num [outletGeo, exGeo]) (by norm_num [outletGeo, exGeo]) (by norm_num [basinInp])
    (by simp [basinInp, overflowInp]) (by simp [basinInp, overflowInp]) rfl (by norm_num) (by norm_num [vesselModel, outletModel, exModel])
    (by norm_num [vesselModel, outletModel, exModel]) (by norm_num [vesselModel, outletModel, exModel])
    (by norm_num [vesselModel, outletModel, exModel])).2.1
  simpa using this

end

end Pipedream.Step
