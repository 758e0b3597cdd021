import Verif.ShortStepProps
import Verif.PhysicsProps

/-!
# C164: short steps follow the equations in time

As the step size goes to zero, the rates of change over a step tend to those of the equations discretised in
space only: momentum of every link, continuity of every inner junction, and the balance of every
superjunction with the pipe ends that belong to it. The error is at most proportional to the step size.
-/

namespace Pipedream.Step

open Pipedream.Sweep Pipedream.Link Pipedream.Superlink Pipedream.Control Pipedream.Network

noncomputable section

variable {m : Model} {geo : Geo} {inp : Inputs} {wk : Work} {s : Hyd}

/-! ### The equations in space

`dQ`, `dh`, `dH` are rates of change of link flows, depths and heads; everything else is taken at the state `s`.
What the pipe ends exchange with superjunctions is expressed by the storage of the end junctions. -/

/-- Flow gained along the upstream end of link `j`: from the link above, or at the first link from the
storage and lateral inflow of the end junction. -/
def gainUp (m : Model) (geo : Geo) (inp : Inputs) (s : Hyd) (dh : ℕ → ℝ) (k j : ℕ) : ℝ :=
  if j = 0 then inp.Q_0Ik (m.ix.I_1k k) - surfaceArea m geo k 0 * dh (m.ix.I_1k k)
  else s.Q (m.ix.i_1k k + j) - s.Q (m.ix.i_1k k + j - 1)

/-- Flow lost along the downstream end of link `j`. -/
def gainDown (m : Model) (geo : Geo) (inp : Inputs) (s : Hyd) (dh : ℕ → ℝ) (k j : ℕ) : ℝ :=
  if j + 1 = m.ix.nk k then
    surfaceArea m geo k (m.ix.nk k) * dh (m.ix.I_1k k + m.ix.nk k) - inp.Q_0Ik (m.ix.I_1k k + m.ix.nk k)
  else s.Q (m.ix.i_1k k + j) - s.Q (m.ix.i_1k k + j + 1)

/-- Momentum of link `j` of superlink `k`: inertia, friction, local loss and upwinded advection against gravity and
pressure. -/
def linkResidual (m : Model) (geo : Geo) (inp : Inputs) (s : Hyd) (dQ dh : ℕ → ℝ) (k j : ℕ) : ℝ :=
  let i := m.ix.i_1k k + j
  let I := m.ix.I_1k k + j
  geo.sigma i * m.dx i * dQ i
    + frictionLaw m.g (m.method i) (s.Q i) (m.dx i) (geo.A i) (geo.R i) (m.n i) * s.Q i
    + (if m.ctrl i then m.C i * geo.A i * |s.Q i| / m.A_c i ^ 2 * s.Q i else 0)
    + geo.sigma i * max (velocityUp m geo s k j) 0 * gainUp m geo inp s dh k j
    + geo.sigma i * max (-velocityDown m geo s k j) 0 * gainDown m geo inp s dh k j
    - m.g * geo.A i * (m.S_o i * m.dx i + s.h I - s.h (I + 1))

/-- Continuity of inner junction `j` of superlink `k`. -/
def junctionResidual (m : Model) (geo : Geo) (inp : Inputs) (s : Hyd) (dh : ℕ → ℝ) (k j : ℕ) : ℝ :=
  surfaceArea m geo k j * dh (m.ix.I_1k k + j)
    - (s.Q (m.ix.i_1k k + j - 1) - s.Q (m.ix.i_1k k + j) + inp.Q_0Ik (m.ix.I_1k k + j))

/-- Balance of superjunction `i` together with the end junctions of its superlinks: storage against inflow, the
first and last link of each superlink, and the control relations. -/
def nodeResidual (m : Model) (geo : Geo) (inp : Inputs) (s : Hyd) (ctrl : ℝ) (dH dh : ℕ → ℝ) (i : ℕ) : ℝ :=
  surfaceAt m geo s i * dH i
    + ∑ k ∈ Finset.range m.ix.NK,
      ((if m.Ju k = i then surfaceArea m geo k 0 * dh (m.ix.I_1k k)
          - inp.Q_0Ik (m.ix.I_1k k) + s.Q (m.ix.i_1k k) else 0)
        + (if m.Jd k = i then surfaceArea m geo k (m.ix.nk k) * dh (m.ix.I_1k k + m.ix.nk k)
          - inp.Q_0Ik (m.ix.I_1k k + m.ix.nk k) - s.Q (m.ix.i_1k k + m.ix.nk k - 1) else 0))
    - (inp.Q_in i + ctrl)

/-- Strictly within all limits. -/
structure Interior (m : Model) (s : Hyd) : Prop where
  heads : ∀ i, i < m.M → m.z_inv i < s.H i ∧ s.H i < m.z_inv i + m.max_depth i
  inner : ∀ k, k < m.ix.NK → ∀ j, 1 ≤ j → j < m.ix.nk k →
    m.min_depth < s.h (m.ix.I_1k k + j) ∧ s.h (m.ix.I_1k k + j) < m.max_depth_k k
  ends : ∀ k, k < m.ix.NK → m.min_depth < s.h (m.ix.I_1k k) ∧ m.min_depth < s.h (m.ix.I_1k k + m.ix.nk k) ∧
    m.min_depth ≤ m.max_depth_k k

/-! ### Short steps stay within the limits -/

/-- What is known about a short step: it is not limited, and changes little. -/
structure Small (m : Model) (geo : Geo) (inp : Inputs) (wk : Work) (s : Hyd) (R dt : ℝ) (co : Coef ℝ) (x : ℕ → ℝ) : Prop where
  unclipped : Unclipped m x (m.advance geo (inp.withStep dt) wk s co x)
    (endDepthU m geo wk s co (m.advance geo (inp.withStep dt) wk s co x).H)
    (endDepthD m geo wk s co (m.advance geo (inp.withStep dt) wk s co x).H)
  heads : ∀ i, i < m.M → |(m.advance geo (inp.withStep dt) wk s co x).H i - s.H i| ≤ R * dt
  depths : ∀ k, k < m.ix.NK → ∀ j, j ≤ m.ix.nk k →
    |(m.advance geo (inp.withStep dt) wk s co x).h (m.ix.I_1k k + j) - s.h (m.ix.I_1k k + j)| ≤ R * dt
  flows : ∀ k, k < m.ix.NK → ∀ j, j < m.ix.nk k →
    |(m.advance geo (inp.withStep dt) wk s co x).Q (m.ix.i_1k k + j) - s.Q (m.ix.i_1k k + j)| ≤ R * dt

theorem short_small (c : m.Consistent) (ps : PhysicalStep m geo inp) (cw : CleanWork m wk.mats)
    (he : m.end_method = .b) (ft : Fits m geo inp s) (int : Interior m s) :
    ∃ R δ, 0 ≤ R ∧ 0 < δ ∧ ∀ dt, 0 < dt → dt < δ → ∀ co x, Pass m geo (inp.withStep dt) wk s s co x →
      Small m geo inp wk s R dt co x := by
  obtain ⟨R, δ, δ0, h⟩ := C153_state_partial c ps cw he ft int.inner
    (fun k hk => ⟨(int.ends k hk).1.le, (int.ends k hk).2.1.le⟩)
  -- room to the limits
  obtain ⟨e1, e10, h1⟩ := least_upto (fun i => if i < m.M then
    min (s.H i - m.z_inv i) (m.z_inv i + m.max_depth i - s.H i) else 1) m.M
    (fun i _ => by
      split_ifs with hi
      · have := int.heads i hi
        exact lt_min (by linarith) (by linarith)
      · exact one_pos)
  have room : ∀ k, k < m.ix.NK → ∃ e, 0 < e ∧ ∀ j, 1 ≤ j → j < m.ix.nk k →
      m.min_depth + e ≤ s.h (m.ix.I_1k k + j) ∧ s.h (m.ix.I_1k k + j) + e ≤ m.max_depth_k k := by
    intro k hk
    obtain ⟨e, e0, h⟩ := least_upto (fun j => if 1 ≤ j ∧ j < m.ix.nk k then
      min (s.h (m.ix.I_1k k + j) - m.min_depth) (m.max_depth_k k - s.h (m.ix.I_1k k + j)) else 1) (m.ix.nk k)
      (fun j _ => by
        split_ifs with h
        · have := int.inner k hk j h.1 h.2
          exact lt_min (by linarith) (by linarith)
        · exact one_pos)
    refine ⟨e, e0, fun j h1 h2 => ?_⟩
    have := h j h2.le
    rw [if_pos ⟨h1, h2⟩] at this
    exact ⟨by linarith [this.trans (min_le_left _ _)], by linarith [this.trans (min_le_right _ _)]⟩
  choose! e e0 he' using room
  obtain ⟨e2, e20, h2⟩ := least_upto (fun k => if k < m.ix.NK then
    min (e k) (min (s.h (m.ix.I_1k k) - m.min_depth) (s.h (m.ix.I_1k k + m.ix.nk k) - m.min_depth)) else 1) m.ix.NK
    (fun k _ => by
      split_ifs with hk
      · have := int.ends k hk
        exact lt_min (e0 k hk) (lt_min (by linarith [this.1]) (by linarith [this.2.1]))
      · exact one_pos)
  refine ⟨|R|, min δ (min e1 e2 / (|R| + 1)), abs_nonneg _, lt_min δ0 (div_pos (lt_min e10 e20) (by positivity)),
    fun dt dt0 dtd co x p => ?_⟩
  obtain ⟨hH, hK⟩ := h dt dt0 (dtd.trans_le (min_le_left _ _)) co x p
  have rr : R * dt ≤ |R| * dt := mul_le_mul_of_nonneg_right (le_abs_self R) dt0.le
  have small : |R| * dt < min e1 e2 := by
    have h1 := dtd.trans_le (min_le_right _ _)
    rw [lt_div_iff₀ (by positivity)] at h1
    linarith
  have s1 : |R| * dt < e1 := small.trans_le (min_le_left _ _)
  have s2 : |R| * dt < e2 := small.trans_le (min_le_right _ _)
  refine ⟨⟨fun i hi => ?_, fun k hk => ?_, fun k hk j j1 j2 => ?_⟩, fun i hi => (hH i hi).trans rr,
    fun k hk j hj => ((hK k hk).1 j hj).trans rr, fun k hk j hj => ((hK k hk).2.1 j hj).trans rr⟩
  · have a := h1 i hi.le
    rw [if_pos hi] at a
    have b := abs_le.mp ((hH i hi).trans rr)
    have a1 := a.trans (min_le_left _ _)
    have a2 := a.trans (min_le_right _ _)
    have ex : (m.advance geo (inp.withStep dt) wk s co x).H i
      = min (max (x i) (m.z_inv i)) (m.z_inv i + m.max_depth i) := rfl
    rw [ex] at b
    constructor
    · by_contra hn
      rw [max_eq_right (not_le.mp hn).le] at b
      linarith [b.1, min_le_left (m.z_inv i) (m.z_inv i + m.max_depth i)]
    · by_contra hn
      rw [min_eq_right ((not_le.mp hn).le.trans (le_max_left _ _))] at b
      linarith [b.2]
  · have a := h2 k hk.le
    rw [if_pos hk] at a
    have a1 := (a.trans (min_le_right _ _)).trans (min_le_left _ _)
    have a2 := (a.trans (min_le_right _ _)).trans (min_le_right _ _)
    have Rel := numbaSolveInternals_spec (sweptFwd m.g co m.ix wk.f) (sweptBwd m.g co m.ix wk.b) m.min_depth
      m.max_depth_k (endDepthU m geo wk s co (m.advance geo (inp.withStep dt) wk s co x).H)
      (endDepthD m geo wk s co (m.advance geo (inp.withStep dt) wk s co x).H) m.ix.i_1k m.ix.I_1k m.ix.nk m.ix.NK m.back
      ⟨s.h, s.Q⟩ c.layout k hk
    have low : ∀ I, (m.advance geo (inp.withStep dt) wk s co x).h I = max m.min_depth
        ((numbaSolveInternals (sweptFwd m.g co m.ix wk.f) (sweptBwd m.g co m.ix wk.b) m.min_depth
          m.max_depth_k (endDepthU m geo wk s co (m.advance geo (inp.withStep dt) wk s co x).H)
          (endDepthD m geo wk s co (m.advance geo (inp.withStep dt) wk s co x).H) m.ix.i_1k m.ix.I_1k m.ix.nk m.ix.NK m.back
          ⟨s.h, s.Q⟩).h I) := by
      intro I
      show (if _ < m.min_depth then m.min_depth else _) = _
      split_ifs with h
      · exact (max_eq_left h.le).symm
      · exact (max_eq_right (not_lt.mp h)).symm
    refine ⟨?_, ?_, (int.ends k hk).2.2⟩
    · have b := abs_le.mp (((hK k hk).1 0 (Nat.zero_le _)).trans rr)
      rw [low, show _ = _ from Rel.h0] at b
      by_contra hn
      rw [max_eq_left (not_le.mp hn).le] at b
      have := b.1
      simp only [Nat.add_zero] at this
      linarith
    · have b := abs_le.mp (((hK k hk).1 (m.ix.nk k) le_rfl).trans rr)
      rw [low, show _ = _ from Rel.hn] at b
      by_contra hn
      rw [max_eq_left (not_le.mp hn).le] at b
      linarith [b.1]
  · have a := h2 k hk.le
    rw [if_pos hk] at a
    have a1 := a.trans (min_le_left _ _)
    have b := abs_le.mp (((hK k hk).1 j j2.le).trans rr)
    have d := he' k hk j j1 j2
    exact ⟨by linarith [b.1], by linarith [b.2]⟩

/-! ### C164 -/

/-- Rates of change over a step. -/
def rateOf (dt : ℝ) (a b : ℕ → ℝ) (i : ℕ) : ℝ := (b i - a i) / dt

theorem abs_mul_le_of {a b e : ℝ} (h : |b| ≤ e) : |a * b| ≤ |a| * e := by
  rw [abs_mul]; exact mul_le_mul_of_nonneg_left h (abs_nonneg _)

/-- **C164 (links), partial.** From a state which fits together and is strictly within its limits: over short
steps the momentum of every link holds in the rates of change, up to an error proportional to the step size. -/
theorem C164_link_partial (c : m.Consistent) (st : StartTables m) (ps : PhysicalStep m geo inp) (cw : CleanWork m wk.mats)
    (he : m.end_method = .b) (ft : Fits m geo inp s) (int : Interior m s)
    {k j : ℕ} (hk : k < m.ix.NK) (hj : j < m.ix.nk k) :
    ∃ C δ, 0 < δ ∧ ∀ dt, 0 < dt → dt < δ → ∀ co x, Pass m geo (inp.withStep dt) wk s s co x →
      |linkResidual m geo inp s (rateOf dt s.Q (m.advance geo (inp.withStep dt) wk s co x).Q)
        (rateOf dt s.h (m.advance geo (inp.withStep dt) wk s co x).h) k j| ≤ C * dt := by
  obtain ⟨R, δ, R0, δ0, h⟩ := short_small c ps cw he ft int
  refine ⟨(|frictionLaw m.g (m.method (m.ix.i_1k k + j)) (s.Q (m.ix.i_1k k + j)) (m.dx (m.ix.i_1k k + j))
      (geo.A (m.ix.i_1k k + j)) (geo.R (m.ix.i_1k k + j)) (m.n (m.ix.i_1k k + j))|
    + |if m.ctrl (m.ix.i_1k k + j) then m.C (m.ix.i_1k k + j) * geo.A (m.ix.i_1k k + j) * |s.Q (m.ix.i_1k k + j)|
        / m.A_c (m.ix.i_1k k + j) ^ 2 else 0|
    + |geo.sigma (m.ix.i_1k k + j) * max (velocityUp m geo s k j) 0| * 2
    + |geo.sigma (m.ix.i_1k k + j) * max (-velocityDown m geo s k j) 0| * 2
    + |m.g * geo.A (m.ix.i_1k k + j)| * 2) * R, δ, δ0, fun dt dt0 dtd co x p => ?_⟩
  have sm := h dt dt0 dtd co x p
  have ps' := physical_withStep ps dt0
  obtain ⟨mo, co'⟩ := C01_momentum_and_continuity c st ps' p he sm.unclipped hk
  have mo := mo j hj
  have c0 := co' 0 (Nat.zero_le _)
  have cn := co' (m.ix.nk k) le_rfl
  set n := m.advance geo (inp.withStep dt) wk s co x with hn
  have npos := c.layout.pos k hk
  unfold MomentumEq at mo
  unfold ContinuityEq at c0 cn
  dsimp only at mo
  -- flow differences at the two ends of the link
  have up : |(n.Q (m.ix.i_1k k + j) - arriving m n k j)
      - gainUp m geo inp s (rateOf dt s.h n.h) k j| ≤ 2 * (R * dt) := by
    unfold gainUp arriving
    split_ifs with h0
    · subst h0
      have e : n.Q (m.ix.i_1k k + 0) - n.Qu k
          - (inp.Q_0Ik (m.ix.I_1k k) - surfaceArea m geo k 0 * rateOf dt s.h n.h (m.ix.I_1k k)) = 0 := by
        unfold arriving leaving at c0
        rw [if_pos rfl, if_neg (by omega)] at c0
        have : surfaceArea m geo k 0 * rateOf dt s.h n.h (m.ix.I_1k k)
          = n.Qu k - n.Q (m.ix.i_1k k + 0) + inp.Q_0Ik (m.ix.I_1k k) := c0
        linarith
      rw [e, abs_zero]; positivity
    · have a := abs_le.mp (sm.flows k hk j hj)
      have b := abs_le.mp (sm.flows k hk (j - 1) (by omega))
      rw [show m.ix.i_1k k + (j - 1) = m.ix.i_1k k + j - 1 by omega] at b
      rw [← hn] at a b
      exact abs_le.mpr ⟨by linarith [a.1, b.2], by linarith [a.2, b.1]⟩
  have down : |(n.Q (m.ix.i_1k k + j) - leaving m n k (j + 1))
      - gainDown m geo inp s (rateOf dt s.h n.h) k j| ≤ 2 * (R * dt) := by
    unfold gainDown leaving
    split_ifs with h0
    · have e : n.Q (m.ix.i_1k k + j) - n.Qd k - (surfaceArea m geo k (m.ix.nk k)
          * rateOf dt s.h n.h (m.ix.I_1k k + m.ix.nk k) - inp.Q_0Ik (m.ix.I_1k k + m.ix.nk k)) = 0 := by
        unfold arriving leaving at cn
        rw [if_neg (by omega), if_pos rfl] at cn
        have : surfaceArea m geo k (m.ix.nk k) * rateOf dt s.h n.h (m.ix.I_1k k + m.ix.nk k)
          = n.Q (m.ix.i_1k k + m.ix.nk k - 1) - n.Qd k + inp.Q_0Ik (m.ix.I_1k k + m.ix.nk k) := cn
        rw [this, show m.ix.i_1k k + m.ix.nk k - 1 = m.ix.i_1k k + j by omega]
        ring
      rw [e, abs_zero]; positivity
    · have a := abs_le.mp (sm.flows k hk j hj)
      have b := abs_le.mp (sm.flows k hk (j + 1) (by omega))
      rw [← hn] at a b
      rw [← Nat.add_assoc] at b
      rw [← Nat.add_assoc]
      exact abs_le.mpr ⟨by linarith [a.1, b.2], by linarith [a.2, b.1]⟩
  have fl := sm.flows k hk j hj
  have press : |(n.h (m.ix.I_1k k + j) - n.h (m.ix.I_1k k + j + 1)) - (s.h (m.ix.I_1k k + j) - s.h (m.ix.I_1k k + j + 1))|
      ≤ 2 * (R * dt) := by
    have a := abs_le.mp (sm.depths k hk j hj.le)
    have b := abs_le.mp (sm.depths k hk (j + 1) (by omega))
    rw [← Nat.add_assoc] at b
    rw [← hn] at a b
    exact abs_le.mpr ⟨by linarith [a.1, b.2], by linarith [a.2, b.1]⟩
  rw [← hn] at fl
  have loss : ∀ q : ℝ, (if m.ctrl (m.ix.i_1k k + j) then m.C (m.ix.i_1k k + j) * geo.A (m.ix.i_1k k + j)
      * |s.Q (m.ix.i_1k k + j)| / m.A_c (m.ix.i_1k k + j) ^ 2 * q else 0)
      = (if m.ctrl (m.ix.i_1k k + j) then m.C (m.ix.i_1k k + j) * geo.A (m.ix.i_1k k + j) * |s.Q (m.ix.i_1k k + j)|
        / m.A_c (m.ix.i_1k k + j) ^ 2 else 0) * q := by
    intro q; split_ifs <;> ring
  unfold linkResidual
  dsimp only
  rw [loss] at mo ⊢
  have mo : geo.sigma (m.ix.i_1k k + j) * m.dx (m.ix.i_1k k + j) * rateOf dt s.Q n.Q (m.ix.i_1k k + j) + _ + _ + _ + _
    = _ := mo
  generalize (if m.ctrl (m.ix.i_1k k + j) then m.C (m.ix.i_1k k + j) * geo.A (m.ix.i_1k k + j) * |s.Q (m.ix.i_1k k + j)|
        / m.A_c (m.ix.i_1k k + j) ^ 2 else 0) = L at mo ⊢
  generalize frictionLaw m.g (m.method (m.ix.i_1k k + j)) (s.Q (m.ix.i_1k k + j)) (m.dx (m.ix.i_1k k + j))
      (geo.A (m.ix.i_1k k + j)) (geo.R (m.ix.i_1k k + j)) (m.n (m.ix.i_1k k + j)) = F at mo ⊢
  generalize geo.sigma (m.ix.i_1k k + j) * max (velocityUp m geo s k j) 0 = au at mo ⊢
  generalize geo.sigma (m.ix.i_1k k + j) * max (-velocityDown m geo s k j) 0 = ad at mo ⊢
  generalize geo.sigma (m.ix.i_1k k + j) * m.dx (m.ix.i_1k k + j) * rateOf dt s.Q n.Q (m.ix.i_1k k + j) = r at mo ⊢
  generalize gainUp m geo inp s (rateOf dt s.h n.h) k j = gu at up ⊢
  generalize gainDown m geo inp s (rateOf dt s.h n.h) k j = gd at down ⊢
  generalize m.g * geo.A (m.ix.i_1k k + j) = G at mo ⊢
  have t1 := abs_le.mp (abs_mul_le_of (a := F) fl)
  have t2 := abs_le.mp (abs_mul_le_of (a := L) fl)
  have t3 := abs_le.mp (abs_mul_le_of (a := au) up)
  have t4 := abs_le.mp (abs_mul_le_of (a := ad) down)
  have t5 := abs_le.mp (abs_mul_le_of (a := G) press)
  have key : r + F * s.Q (m.ix.i_1k k + j) + L * s.Q (m.ix.i_1k k + j) + au * gu + ad * gd
      - G * (m.S_o (m.ix.i_1k k + j) * m.dx (m.ix.i_1k k + j) + s.h (m.ix.I_1k k + j) - s.h (m.ix.I_1k k + j + 1))
      = - (F * (n.Q (m.ix.i_1k k + j) - s.Q (m.ix.i_1k k + j))) - L * (n.Q (m.ix.i_1k k + j) - s.Q (m.ix.i_1k k + j))
        - au * (n.Q (m.ix.i_1k k + j) - arriving m n k j - gu) - ad * (n.Q (m.ix.i_1k k + j) - leaving m n k (j + 1) - gd)
        + G * ((n.h (m.ix.I_1k k + j) - n.h (m.ix.I_1k k + j + 1)) - (s.h (m.ix.I_1k k + j) - s.h (m.ix.I_1k k + j + 1))) := by
    linear_combination mo
  rw [key]
  have tot : (|F| + |L| + |au| * 2 + |ad| * 2 + |G| * 2) * R * dt
    = |F| * (R * dt) + |L| * (R * dt) + |au| * (2 * (R * dt)) + |ad| * (2 * (R * dt)) + |G| * (2 * (R * dt)) := by ring
  rw [tot]
  exact abs_le.mpr ⟨by linarith [t1.2, t2.2, t3.2, t4.2, t5.1], by linarith [t1.1, t2.1, t3.1, t4.1, t5.2]⟩

/-- **C164 (inner junctions), partial.** Over short steps the depth of every inner junction changes at the rate the
flows of its two links say, up to an error proportional to the step size. -/
theorem C164_junction_partial (c : m.Consistent) (st : StartTables m) (ps : PhysicalStep m geo inp) (cw : CleanWork m wk.mats)
    (he : m.end_method = .b) (ft : Fits m geo inp s) (int : Interior m s)
    {k j : ℕ} (hk : k < m.ix.NK) (j1 : 1 ≤ j) (hj : j < m.ix.nk k) :
    ∃ C δ, 0 < δ ∧ ∀ dt, 0 < dt → dt < δ → ∀ co x, Pass m geo (inp.withStep dt) wk s s co x →
      |junctionResidual m geo inp s (rateOf dt s.h (m.advance geo (inp.withStep dt) wk s co x).h) k j| ≤ C * dt := by
  obtain ⟨R, δ, R0, δ0, h⟩ := short_small c ps cw he ft int
  refine ⟨2 * R, δ, δ0, fun dt dt0 dtd co x p => ?_⟩
  have sm := h dt dt0 dtd co x p
  have ps' := physical_withStep ps dt0
  have cj := (C01_momentum_and_continuity c st ps' p he sm.unclipped hk).2 j hj.le
  set n := m.advance geo (inp.withStep dt) wk s co x with hn
  unfold ContinuityEq arriving leaving at cj
  rw [if_neg (by omega), if_neg (by omega)] at cj
  have a := abs_le.mp (sm.flows k hk j hj)
  have b := abs_le.mp (sm.flows k hk (j - 1) (by omega))
  rw [show m.ix.i_1k k + (j - 1) = m.ix.i_1k k + j - 1 by omega] at b
  rw [← hn] at a b
  have cj : surfaceArea m geo k j * rateOf dt s.h n.h (m.ix.I_1k k + j)
    = n.Q (m.ix.i_1k k + j - 1) - n.Q (m.ix.i_1k k + j) + inp.Q_0Ik (m.ix.I_1k k + j) := cj
  unfold junctionResidual
  rw [cj]
  exact abs_le.mpr ⟨by linarith [a.2, b.1], by linarith [a.1, b.2]⟩

/-- Net flow into superjunction `i` through controls with the relations `lin`. -/
def linInflow (n : ℕ) (Ju Jd : ℕ → ℕ) (lin : ℕ → Lin) (H : ℕ → ℝ) (i : ℕ) : ℝ :=
  ∑ k ∈ Finset.range n, ((if Jd k = i then (lin k).eval (H (Ju k)) (H (Jd k)) else 0)
    - (if Ju k = i then (lin k).eval (H (Ju k)) (H (Jd k)) else 0))

/-- Net flow into superjunction `i` through all controls, with their relations at the state `s`. -/
def controlInflow (m : Model) (geo : Geo) (inp : Inputs) (wk : Work) (s : Hyd) (H : ℕ → ℝ) (i : ℕ) : ℝ :=
  linInflow m.n_o m.Juo m.Jdo (m.oLin geo inp wk s) H i + linInflow m.n_w m.Juw m.Jdw (m.wLin inp wk s) H i
    + linInflow m.n_p m.Jup m.Jdp (m.pLin inp wk s) H i

/-- Relations linear in the heads change little with them. -/
theorem linInflow_near {n : ℕ} {Ju Jd : ℕ → ℕ} (lin : ℕ → Lin) {M : ℕ} (hu : ∀ k, k < n → Ju k < M)
    (hd : ∀ k, k < n → Jd k < M) (i : ℕ) :
    ∃ L, ∀ (x y : ℕ → ℝ) e, 0 ≤ e → (∀ l, l < M → |x l - y l| ≤ e) →
      |linInflow n Ju Jd lin x i - linInflow n Ju Jd lin y i| ≤ L * e := by
  refine ⟨∑ k ∈ Finset.range n, 2 * (|(lin k).alpha| + |(lin k).beta|), fun x y e e0 h => ?_⟩
  unfold linInflow
  rw [← Finset.sum_sub_distrib, Finset.sum_mul]
  refine (Finset.abs_sum_le_sum_abs _ _).trans (Finset.sum_le_sum fun k hk => ?_)
  have hk := Finset.mem_range.mp hk
  have q : |(lin k).eval (x (Ju k)) (x (Jd k)) - (lin k).eval (y (Ju k)) (y (Jd k))| ≤ (|(lin k).alpha| + |(lin k).beta|) * e := by
    have e1 : (lin k).eval (x (Ju k)) (x (Jd k)) - (lin k).eval (y (Ju k)) (y (Jd k))
        = (lin k).alpha * (x (Ju k) - y (Ju k)) + (lin k).beta * (x (Jd k) - y (Jd k)) := by
      simp only [Lin.eval]; ring
    rw [e1]
    refine (abs_add_le _ _).trans ?_
    have a := abs_mul_le_of (a := (lin k).alpha) (h _ (hu k hk))
    have b := abs_mul_le_of (a := (lin k).beta) (h _ (hd k hk))
    linarith
  have q := abs_le.mp q
  have z : 0 ≤ (|(lin k).alpha| + |(lin k).beta|) * e := by positivity
  split_ifs <;> exact abs_le.mpr ⟨by linarith [q.1, q.2], by linarith [q.1, q.2]⟩

/-- **C164 (superjunctions), partial.** Over short steps the head of every free superjunction changes at the rate which
inflow, controls and the first and last links of its superlinks say, the end junctions of these superlinks
counted with it, up to an error proportional to the step size. -/
theorem C164_superjunction_partial (c : m.Consistent) (st : StartTables m) (ps : PhysicalStep m geo inp)
    (cw : CleanWork m wk.mats) (he : m.end_method = .b) (ft : Fits m geo inp s) (int : Interior m s)
    {i : ℕ} (hi : i < m.M) (hb : m.bc i = false) :
    ∃ C δ, 0 < δ ∧ ∀ dt, 0 < dt → dt < δ → ∀ co x, Pass m geo (inp.withStep dt) wk s s co x →
      |nodeResidual m geo inp s (controlInflow m geo inp wk s s.H i)
        (rateOf dt s.H (m.advance geo (inp.withStep dt) wk s co x).H)
        (rateOf dt s.h (m.advance geo (inp.withStep dt) wk s co x).h) i| ≤ C * dt := by
  obtain ⟨R, δ, R0, δ0, h⟩ := short_small c ps cw he ft int
  obtain ⟨L1, hL1⟩ := linInflow_near (m.oLin geo inp wk s) c.Juo c.Jdo i
  obtain ⟨L2, hL2⟩ := linInflow_near (m.wLin inp wk s) c.Juw c.Jdw i
  obtain ⟨L3, hL3⟩ := linInflow_near (m.pLin inp wk s) c.Jup c.Jdp i
  refine ⟨(2 * m.ix.NK + L1 + L2 + L3) * R, δ, δ0, fun dt dt0 dtd co x p => ?_⟩
  have sm := h dt dt0 dtd co x p
  have ps' := physical_withStep ps dt0
  have eqs := fun k hk => C01_momentum_and_continuity (k := k) c st ps' p he sm.unclipped hk
  have bal := C07_step c cw p sm.unclipped.heads i hi hb
  have ar := area_eq (wk := wk) (cur := s) (co := co) ps' i
  set n := m.advance geo (inp.withStep dt) wk s co x with hn
  have e0 : 0 ≤ R * dt := by positivity
  have t1 := abs_le.mp (hL1 n.H s.H _ e0 sm.heads)
  have t2 := abs_le.mp (hL2 n.H s.H _ e0 sm.heads)
  have t3 := abs_le.mp (hL3 n.H s.H _ e0 sm.heads)
  have bal : surfaceAt m geo s i * rateOf dt s.H n.H i
      = inp.Q_in i + (∑ k ∈ Finset.range m.ix.NK, ((if m.Jd k = i then n.Qd k else 0) - (if m.Ju k = i then n.Qu k else 0)))
        + controlInflow m geo inp wk s n.H i := by
    have b : ((m.net geo (inp.withStep dt) wk s co).As i / dt + (m.net geo (inp.withStep dt) wk s co).links.xiSum i)
        * (n.H i - s.H i) = inp.Q_in i + (m.net geo (inp.withStep dt) wk s co).links.inflow n.H i
        + linInflow m.n_o m.Juo m.Jdo (m.oLin geo inp wk s) n.H i + linInflow m.n_w m.Juw m.Jdw (m.wLin inp wk s) n.H i
        + linInflow m.n_p m.Jup m.Jdp (m.pLin inp wk s) n.H i := bal
    have b2 : (m.net geo (inp.withStep dt) wk s co).links.inflow n.H i
      = ∑ k ∈ Finset.range m.ix.NK, ((if m.Jd k = i then n.Qd k else 0) - (if m.Ju k = i then n.Qu k else 0)) := rfl
    have b3 : surfaceAt m geo s i * rateOf dt s.H n.H i
        = ((m.net geo (inp.withStep dt) wk s co).As i / dt + (m.net geo (inp.withStep dt) wk s co).links.xiSum i)
          * (n.H i - s.H i) := by
      rw [← ar]
      unfold area rateOf
      show (_ + dt * _) * _ = _
      field_simp
    rw [b3, b, b2]
    unfold controlInflow
    ring
  unfold nodeResidual
  rw [bal]
  have sums : ∀ k, k < m.ix.NK → |((if m.Jd k = i then n.Qd k else 0) - (if m.Ju k = i then n.Qu k else 0))
      + ((if m.Ju k = i then surfaceArea m geo k 0 * rateOf dt s.h n.h (m.ix.I_1k k)
          - inp.Q_0Ik (m.ix.I_1k k) + s.Q (m.ix.i_1k k) else 0)
        + (if m.Jd k = i then surfaceArea m geo k (m.ix.nk k) * rateOf dt s.h n.h (m.ix.I_1k k + m.ix.nk k)
          - inp.Q_0Ik (m.ix.I_1k k + m.ix.nk k) - s.Q (m.ix.i_1k k + m.ix.nk k - 1) else 0))| ≤ 2 * (R * dt) := by
    intro k hk
    have npos := c.layout.pos k hk
    have c0 := (eqs k hk).2 0 (Nat.zero_le _)
    have cn := (eqs k hk).2 (m.ix.nk k) le_rfl
    unfold ContinuityEq arriving leaving at c0 cn
    rw [if_pos rfl, if_neg (by omega)] at c0
    rw [if_neg (by omega), if_pos rfl] at cn
    have c0 : surfaceArea m geo k 0 * rateOf dt s.h n.h (m.ix.I_1k k)
      = n.Qu k - n.Q (m.ix.i_1k k) + inp.Q_0Ik (m.ix.I_1k k) := c0
    have cn : surfaceArea m geo k (m.ix.nk k) * rateOf dt s.h n.h (m.ix.I_1k k + m.ix.nk k)
      = n.Q (m.ix.i_1k k + m.ix.nk k - 1) - n.Qd k + inp.Q_0Ik (m.ix.I_1k k + m.ix.nk k) := cn
    have a : |n.Q (m.ix.i_1k k) - s.Q (m.ix.i_1k k)| ≤ R * dt := sm.flows k hk 0 npos
    have b := sm.flows k hk (m.ix.nk k - 1) (by omega)
    rw [show m.ix.i_1k k + (m.ix.nk k - 1) = m.ix.i_1k k + m.ix.nk k - 1 by omega] at b
    rw [← hn] at b
    have a := abs_le.mp a
    have b := abs_le.mp b
    rw [c0, cn]
    split_ifs <;> exact abs_le.mpr ⟨by linarith [a.1, a.2, b.1, b.2], by linarith [a.1, a.2, b.1, b.2]⟩
  have tot := (Finset.abs_sum_le_sum_abs _ _).trans (Finset.sum_le_sum fun k hk => sums k (Finset.mem_range.mp hk))
  rw [Finset.sum_add_distrib, Finset.sum_const, Finset.card_range, nsmul_eq_mul] at tot
  have tot := abs_le.mp tot
  unfold controlInflow
  exact abs_le.mpr ⟨by linarith [tot.1, t1.1, t2.1, t3.1], by linarith [tot.2, t1.2, t2.2, t3.2]⟩

/-! ### Non-vacuity -/

theorem exBumpInterior : Interior (exModel false) exBump := by
  have k0 : ∀ k, k < (exModel false).ix.NK → k = 0 := fun k hk => by simp only [exModel] at hk; omega
  refine ⟨fun i _ => by norm_num [exModel, exBump, exStill], fun k hk j h1 h2 => ?_, fun k hk => ?_⟩
  · obtain rfl := k0 k hk
    have : j = 1 := by simp only [exModel] at h2; omega
    subst j
    norm_num [exModel, exBump]
  · obtain rfl := k0 k hk
    norm_num [exModel, exBump, exBed]

/-- The pond with a bump at the middle junction: over short steps the flow of the first link changes at the rate
the bump imposes, and steps of all sizes exist. -/
example : (∃ C δ, 0 < δ ∧ ∀ dt, 0 < dt → dt < δ → ∀ co x, Pass (exModel false) exGeo (exInp.withStep dt) exWork exBump exBump co x →
      |linkResidual (exModel false) exGeo exInp exBump
        (rateOf dt exBump.Q ((exModel false).advance exGeo (exInp.withStep dt) exWork exBump co x).Q)
        (rateOf dt exBump.h ((exModel false).advance exGeo (exInp.withStep dt) exWork exBump co x).h) 0 0| ≤ C * dt) ∧
    ∀ dt, 0 < dt → ∃ co x, Pass (exModel false) exGeo (exInp.withStep dt) exWork exBump exBump co x :=
  ⟨C164_link_partial (exConsistent false) (exStartTables false) (exPhysical false) (exClean false) rfl exBumpFitting
      exBumpInterior (by norm_num [exModel]) (by norm_num [exModel]),
   fun _ dt0 => C06_step_exists (exConsistent false) (physical_withStep (exPhysical false) dt0) (exClean false) (fun _ _ => Or.inl rfl)⟩

end

end Pipedream.Step
