import Verif.VesselProps

/-!
# C160: the passes of a step over two vessels joined by an orifice converge

Unlike those over a weir (`IterateSettleProps`), for steps of every size.
-/

namespace Pipedream.Step

open Pipedream.Sweep Pipedream.Link Pipedream.Superlink Pipedream.Control Pipedream.Network Settle Filter Topology

variable {m : Model} {i j o : ℕ} {A B a dt u : ℝ} {st : ℕ → Hyd}

noncomputable section

/-! ### Specification -/

/-- The states `st 1`, `st 2`, … after the passes of one step of size `dt` from `st 0` over two vessels joined by a drowned orifice; the
conditions are those of `VesselRun`. -/
structure VesselPasses (m : Model) (i j o : ℕ) (A B a dt u : ℝ) (st : ℕ → Hyd) : Prop where
  vessels : Vessels m i j o
  consistent : m.Consistent
  g_pos : 0 < m.g
  a_pos : 0 < a
  Co_pos : 0 < m.Co o
  A_pos : 0 < A
  B_pos : 0 < B
  dt_pos : 0 < dt
  drowned : crown (m.orifice o) u < common i j A B (st 0)
  low : centre (m.orifice o) u < min ((st 0).H i) ((st 0).H j)
  floor : m.z_inv i ≤ centre (m.orifice o) u ∧ m.z_inv j ≤ centre (m.orifice o) u
  room : max ((st 0).H i) ((st 0).H j) ≤ min (m.z_inv i + m.max_depth i) (m.z_inv j + m.max_depth j)
  apart : (st 0).H i ≠ (st 0).H j
  way : (m.orifice o).unidir = true → (st 0).H j < (st 0).H i
  start : (st 0).Qo o = orificeRaw m.g a (m.Co o) ((st 0).H i) ((st 0).H j) u (m.orifice o)
  pass : ∀ n, ∃ (geo : Geo) (inp : Inputs) (wk : Work) (co : Coef ℝ) (x : ℕ → ℝ), CleanWork m wk.mats ∧ geo.As i = A ∧
    geo.As j = B ∧ geo.Ao o = a ∧ inp.dt = dt ∧ inp.Q_in i = 0 ∧ inp.Q_in j = 0 ∧ inp.u_o o = u ∧
    dt * |orificeRaw m.g a (m.Co o) ((st (n + 1)).H i) ((st (n + 1)).H j) u (m.orifice o)|
      ≤ (if (st (n + 1)).H i > (st (n + 1)).H j then geo.V i else geo.V j) ∧
    Pass m geo inp wk (st 0) (st n) co x ∧ st (n + 1) = m.advance geo inp wk (st n) co x

/-- The levels `y`, `z` solve the balances of the step with the flow through the orifice taken at the new levels. -/
structure LevelSolution (m : Model) (i j o : ℕ) (A B a dt u : ℝ) (s : Hyd) (y z : ℝ) : Prop where
  source : A / dt * (y - s.H i) = -orificeRaw m.g a (m.Co o) y z u (m.orifice o)
  target : B / dt * (z - s.H j) = orificeRaw m.g a (m.Co o) y z u (m.orifice o)

/-! ### One pass -/

theorem passes_coupling_pos (R : VesselPasses m i j o A B a dt u st) : 0 < coupling m o A B a dt := by
  have := R.A_pos
  have := R.B_pos
  have := R.dt_pos
  have := R.a_pos
  have := R.Co_pos
  have := R.g_pos
  unfold coupling
  positivity

theorem vessel_pass (R : VesselPasses m i j o A B a dt u st) (n : ℕ) (b : Between m i j o A B a u (st 0) (st n)) :
    Between m i j o A B a u (st 0) (st (n + 1)) ∧
      ((st (n + 1)).H i - (st (n + 1)).H j) * (1 + coupling m o A B a dt / Real.sqrt |(st n).H i - (st n).H j|)
        = (st 0).H i - (st 0).H j := by
  have A0 := R.A_pos
  have B0 := R.B_pos
  have d0 := R.dt_pos
  have a0 := R.a_pos
  have C0 := R.Co_pos
  have g0 := R.g_pos
  have q0 : 0 < m.Co o * a * Real.sqrt (2 * m.g) := by positivity
  have dif : 0 < |(st n).H i - (st n).H j| := abs_pos.mpr (sub_ne_zero.mpr b.apart)
  have sq := Real.sqrt_pos.mpr dif
  have hi : crown (m.orifice o) u < max ((st n).H i) ((st n).H j) :=
    R.drowned.trans_le (b.same ▸ (common_mem A0 B0 (st n)).2)
  have lo : centre (m.orifice o) u < min ((st n).H i) ((st n).H j) := R.low.trans_le b.low
  have way : (m.orifice o).unidir = true → (st n).H j < (st n).H i := fun h => b.side.mpr (R.way h)
  obtain ⟨geo, inp, wk, co, x, cw, eA, eB, ea, edt, qi, qj, eu, hV, pa, es⟩ := R.pass n
  obtain ⟨b1, b2⟩ := vessel_balance R.vessels R.consistent cw pa
  have z : (m.oLin geo inp wk (st n) o).eval (x i) (x j)
      = m.Co o * a * Real.sqrt (2 * m.g) / Real.sqrt |(st n).H i - (st n).H j| * (x i - x j) := by
    unfold Model.oLin orificeLin
    rw [R.vessels.src, R.vessels.dst, eu, ea, orificeCoef_drowned hi lo way, gammaO, b.flow, safeDivide_eq]
    have e2 : 2 * m.g = Real.sqrt (2 * m.g) * Real.sqrt (2 * m.g) := (Real.mul_self_sqrt (by positivity)).symm
    have s2 : 0 < Real.sqrt (2 * m.g) := Real.sqrt_pos.mpr (by positivity)
    unfold Lin.eval
    dsimp only
    have e3 : 2 * m.g * m.Co o ^ 2 * a ^ 2 / (m.Co o * a * Real.sqrt (2 * m.g) * Real.sqrt |(st n).H i - (st n).H j|)
        = m.Co o * a * Real.sqrt (2 * m.g) / Real.sqrt |(st n).H i - (st n).H j| := by
      rw [div_eq_div_iff (by positivity) sq.ne']
      calc 2 * m.g * m.Co o ^ 2 * a ^ 2 * √|(st n).H i - (st n).H j|
          = (2 * m.g) * (m.Co o ^ 2 * a ^ 2 * √|(st n).H i - (st n).H j|) := by ring
        _ = (√(2 * m.g) * √(2 * m.g)) * (m.Co o ^ 2 * a ^ 2 * √|(st n).H i - (st n).H j|) := by rw [← e2]
        _ = _ := by ring
    rw [e3]; ring
  rw [eA, edt, qi, z, zero_sub] at b1
  rw [eB, edt, qj, z, zero_add] at b2
  have ex := exchange A0 B0 d0 (by positivity) b1 b2
  obtain ⟨keep, dd, mn, mx⟩ := ex
  have fl := R.floor
  have rm := R.room
  have yi : (st (n + 1)).H i = x i := by
    rw [es]
    change min (max (x i) (m.z_inv i)) (m.z_inv i + m.max_depth i) = _
    have l1 := min_le_left (x i) (x j)
    have l2 := le_max_left (x i) (x j)
    have l3 := min_le_left (m.z_inv i + m.max_depth i) (m.z_inv j + m.max_depth j)
    rw [max_eq_left (by linarith [fl.1, R.low]), min_eq_left (by linarith)]
  have yj : (st (n + 1)).H j = x j := by
    rw [es]
    change min (max (x j) (m.z_inv j)) (m.z_inv j + m.max_depth j) = _
    have l1 := min_le_right (x i) (x j)
    have l2 := le_max_right (x i) (x j)
    have l3 := min_le_right (m.z_inv i + m.max_depth i) (m.z_inv j + m.max_depth j)
    rw [max_eq_left (by linarith [fl.2, R.low]), min_eq_left (by linarith)]
  have F : 0 < 1 + coupling m o A B a dt / Real.sqrt |(st n).H i - (st n).H j| := by
    have := passes_coupling_pos R
    positivity
  have dd' : (x i - x j) * (1 + coupling m o A B a dt / Real.sqrt |(st n).H i - (st n).H j|) = (st 0).H i - (st 0).H j := by
    refine Eq.trans ?_ dd; unfold coupling; ring
  have sideN : x j < x i ↔ (st 0).H j < (st 0).H i := by
    rw [← sub_pos (b := x j), ← sub_pos (b := (st 0).H j)]
    constructor
    · intro h
      exact (mul_pos h F).trans_eq dd'
    · intro h
      exact (mul_pos_iff_of_pos_right F).mp (h.trans_eq dd'.symm)
  have ne : x i ≠ x j := by
    intro e
    rw [e, sub_self, zero_mul] at dd'
    exact R.apart (by linarith)
  have sameC : common i j A B (st (n + 1)) = common i j A B (st 0) := by
    unfold common; rw [yi, yj, keep]
  have side' : (st (n + 1)).H j < (st (n + 1)).H i ↔ (st 0).H j < (st 0).H i := by rw [yi, yj]; exact sideN
  rw [← yi, ← yj] at mn mx dd'
  have hi' : crown (m.orifice o) u < max ((st (n + 1)).H i) ((st (n + 1)).H j) :=
    R.drowned.trans_le (sameC ▸ (common_mem A0 B0 (st (n + 1))).2)
  have lo' : centre (m.orifice o) u < min ((st (n + 1)).H i) ((st (n + 1)).H j) := R.low.trans_le mn
  have way' : (m.orifice o).unidir = true → (st (n + 1)).H j < (st (n + 1)).H i := fun h => side'.mpr (R.way h)
  have raw := orificeRaw_drowned g0 a0 C0 hi' lo' way'
  have e : (st (n + 1)).Qo o = orificeFlow m.g (geo.Ao o) (m.Co o) ((st (n + 1)).H (m.Juo o)) ((st (n + 1)).H (m.Jdo o))
      (inp.u_o o) (geo.V (m.Juo o)) (geo.V (m.Jdo o)) inp.dt (m.orifice o) := by rw [es]; rfl
  have fl' : |(st (n + 1)).Qo o| = m.Co o * a * Real.sqrt (2 * m.g) * Real.sqrt |(st (n + 1)).H i - (st (n + 1)).H j| := by
    rw [← raw, e, R.vessels.src, R.vessels.dst, ea, eu, edt, orificeFlow]
    congr 1
    refine orificeLimit_id ?_
    rw [le_div_iff₀ d0, mul_comm]
    exact hV
  exact ⟨⟨sameC, mn, mx, by rw [yi, yj]; exact ne, side', fl'⟩, dd'⟩

theorem passes_all (R : VesselPasses m i j o A B a dt u st) (n : ℕ) : Between m i j o A B a u (st 0) (st n) := by
  induction n with
  | zero =>
    refine ⟨rfl, le_rfl, le_rfl, R.apart, Iff.rfl, ?_⟩
    rw [R.start]
    exact orificeRaw_drowned R.g_pos R.a_pos R.Co_pos (R.drowned.trans_le (common_mem R.A_pos R.B_pos _).2) R.low R.way
  | succ n ih => exact (vessel_pass R n ih).1

/-! ### The passes of the difference -/

/-- The root of the difference in the solution. -/
def rootOf (κ d : ℝ) : ℝ := (Real.sqrt (κ ^ 2 + 4 * d) - κ) / 2

theorem rootOf_spec {κ d : ℝ} (hκ : 0 < κ) (hd : 0 < d) : 0 < rootOf κ d ∧ rootOf κ d ^ 2 + κ * rootOf κ d = d := by
  have e := Real.sq_sqrt (show 0 ≤ κ ^ 2 + 4 * d by positivity)
  have l : κ < Real.sqrt (κ ^ 2 + 4 * d) := by
    rw [Real.lt_sqrt hκ.le]; linarith
  unfold rootOf
  generalize Real.sqrt (κ ^ 2 + 4 * d) = s at *
  refine ⟨by linarith, ?_⟩
  have : ((s - κ) / 2) ^ 2 + κ * ((s - κ) / 2) = (s ^ 2 - κ ^ 2) / 4 := by ring
  rw [this, e]; ring

theorem pass_bounds {κ d0 d d' r p : ℝ} (hκ : 0 < κ) (hr : 0 < r) (er : r ^ 2 + κ * r = d0)
    (hd : r ^ 2 ≤ d) (e : d' * (1 + κ / Real.sqrt d) = d0) (hu : d ≤ r ^ 2 * (d0 / r ^ 2) ^ p) :
    r ^ 2 ≤ d' ∧ d' ≤ r ^ 2 * (d0 / r ^ 2) ^ (p / 2) := by
  have dpos : 0 < d := lt_of_lt_of_le (by positivity) hd
  have s0 := Real.sqrt_pos.mpr dpos
  have rs : r ≤ Real.sqrt d := Real.le_sqrt_of_sq_le hd
  have d00 : 0 < d0 := by rw [← er]; positivity
  have c0 : 0 < d0 / r ^ 2 := by positivity
  have e' : d' * (Real.sqrt d + κ) = d0 * Real.sqrt d := by
    rw [← e]; field_simp
  have su : Real.sqrt d ≤ r * (d0 / r ^ 2) ^ (p / 2) := by
    have h := Real.sqrt_le_sqrt hu
    rw [Real.sqrt_mul (by positivity), Real.sqrt_sq hr.le] at h
    rwa [Real.sqrt_eq_rpow ((d0 / r ^ 2) ^ p), ← Real.rpow_mul c0.le, mul_one_div] at h
  generalize Real.sqrt d = s at *
  constructor
  · refine le_of_mul_le_mul_right ?_ (show 0 < s + κ by linarith)
    rw [e', ← er]
    have : r ^ 2 * (s + κ) - (r ^ 2 + κ * r) * s = r * κ * (r - s) := by ring
    have : r * κ * (r - s) ≤ 0 := mul_nonpos_of_nonneg_of_nonpos (by positivity) (by linarith)
    linarith
  · have l : d' ≤ r * s := by
      refine le_of_mul_le_mul_right ?_ (show 0 < s + κ by linarith)
      rw [e', ← er]
      have : (r ^ 2 + κ * r) * s - r * s * (s + κ) = r * s * (r - s) := by ring
      have : r * s * (r - s) ≤ 0 := mul_nonpos_of_nonneg_of_nonpos (by positivity) (by linarith)
      linarith
    refine l.trans ?_
    calc r * s ≤ r * (r * (d0 / r ^ 2) ^ (p / 2)) := mul_le_mul_of_nonneg_left su hr.le
      _ = _ := by ring

/-! ### C160 -/

/-- **C160 (orifices: rate).** The logarithm of the difference of the levels, compared with that of the solution, is at least halved by
every pass; the difference is never less than that of the solution. -/
theorem C160_vessels_rate (R : VesselPasses m i j o A B a dt u st) (n : ℕ) :
    rootOf (coupling m o A B a dt) |(st 0).H i - (st 0).H j| ^ 2 ≤ |(st n).H i - (st n).H j| ∧
    |(st n).H i - (st n).H j| ≤ rootOf (coupling m o A B a dt) |(st 0).H i - (st 0).H j| ^ 2 *
      (|(st 0).H i - (st 0).H j| / rootOf (coupling m o A B a dt) |(st 0).H i - (st 0).H j| ^ 2) ^ ((1 / 2 : ℝ) ^ n) := by
  have κ := passes_coupling_pos R
  have d0 : 0 < |(st 0).H i - (st 0).H j| := abs_pos.mpr (sub_ne_zero.mpr R.apart)
  obtain ⟨r0, er⟩ := rootOf_spec κ d0
  induction n with
  | zero =>
    rw [pow_zero, Real.rpow_one, mul_div_cancel₀ _ (by positivity)]
    refine ⟨?_, le_rfl⟩
    have := mul_pos κ r0
    linarith
  | succ n ih =>
    have b := passes_all R n
    obtain ⟨-, e⟩ := vessel_pass R n b
    have dif : 0 < |(st n).H i - (st n).H j| := abs_pos.mpr (sub_ne_zero.mpr b.apart)
    have F1 : 0 < 1 + coupling m o A B a dt / Real.sqrt |(st n).H i - (st n).H j| := by
      have := Real.sqrt_pos.mpr dif
      positivity
    have e' : |(st (n + 1)).H i - (st (n + 1)).H j| * (1 + coupling m o A B a dt / Real.sqrt |(st n).H i - (st n).H j|)
        = |(st 0).H i - (st 0).H j| := by
      rw [← e, abs_mul, abs_of_pos F1]
    have := pass_bounds κ r0 er ih.1 e' ih.2
    rwa [show (1 / 2 : ℝ) ^ n / 2 = (1 / 2 : ℝ) ^ (n + 1) by rw [pow_succ]; ring] at this

/-- **C160 (orifices: convergence).** Whatever the size of the step, the passes converge, and to levels which solve the balances of the
step with the flow taken at the new levels. -/
theorem C160_vessels_converge (R : VesselPasses m i j o A B a dt u st) :
    ∃ y z, LevelSolution m i j o A B a dt u (st 0) y z ∧ Tendsto (fun n => (st n).H i) atTop (𝓝 y) ∧
      Tendsto (fun n => (st n).H j) atTop (𝓝 z) := by
  have A0 := R.A_pos
  have B0 := R.B_pos
  have t0 := R.dt_pos
  have κ := passes_coupling_pos R
  have d0 : 0 < |(st 0).H i - (st 0).H j| := abs_pos.mpr (sub_ne_zero.mpr R.apart)
  obtain ⟨r0, er⟩ := rootOf_spec κ d0
  have rate := C160_vessels_rate R
  generalize hr : rootOf (coupling m o A B a dt) |(st 0).H i - (st 0).H j| = r at *
  -- the sign of the difference
  obtain ⟨σ, hσ, s0, sn⟩ : ∃ σ : ℝ, (σ = 1 ∧ (st 0).H j < (st 0).H i ∨ σ = -1 ∧ (st 0).H i < (st 0).H j) ∧
      (st 0).H i - (st 0).H j = σ * |(st 0).H i - (st 0).H j| ∧
      ∀ n, (st n).H i - (st n).H j = σ * |(st n).H i - (st n).H j| := by
    rcases lt_or_gt_of_ne R.apart with h | h
    · have all : ∀ n, (st n).H i - (st n).H j = -1 * |(st n).H i - (st n).H j| := by
        intro n
        have b := passes_all R n
        have : (st n).H i < (st n).H j := lt_of_le_of_ne (not_lt.mp fun c => absurd (b.side.mp c) (not_lt.mpr h.le)) b.apart
        rw [abs_of_neg (by linarith)]; ring
      exact ⟨-1, Or.inr ⟨rfl, h⟩, all 0, all⟩
    · have all : ∀ n, (st n).H i - (st n).H j = 1 * |(st n).H i - (st n).H j| := by
        intro n
        have b := passes_all R n
        rw [abs_of_pos (by linarith [b.side.mpr h])]; ring
      exact ⟨1, Or.inl ⟨rfl, h⟩, all 0, all⟩
  have c0 : 0 < |(st 0).H i - (st 0).H j| / r ^ 2 := by positivity
  have td : Tendsto (fun n => |(st n).H i - (st n).H j|) atTop (𝓝 (r ^ 2)) := by
    refine tendsto_of_tendsto_of_tendsto_of_le_of_le tendsto_const_nhds ?_ (fun n => (rate n).1) fun n => (rate n).2
    have p : Tendsto (fun n : ℕ => (1 / 2 : ℝ) ^ n) atTop (𝓝 0) := tendsto_pow_atTop_nhds_zero_of_lt_one (by norm_num) (by norm_num)
    have q := ((Real.continuousAt_const_rpow c0.ne').tendsto.comp p).const_mul (r ^ 2)
    rw [Real.rpow_zero, mul_one] at q
    exact q
  have ei : ∀ n, (st n).H i = common i j A B (st 0) + B / (A + B) * (σ * |(st n).H i - (st n).H j|) := by
    intro n
    rw [← sn n, ← (passes_all R n).same]
    unfold common
    field_simp
    ring
  have ej : ∀ n, (st n).H j = common i j A B (st 0) - A / (A + B) * (σ * |(st n).H i - (st n).H j|) := by
    intro n
    rw [← sn n, ← (passes_all R n).same]
    unfold common
    field_simp
    ring
  have ti := ((td.const_mul σ).const_mul (B / (A + B))).const_add (common i j A B (st 0))
  have tj := ((td.const_mul σ).const_mul (A / (A + B))).const_sub (common i j A B (st 0))
  have Ti : Tendsto (fun n => (st n).H i) atTop (𝓝 (common i j A B (st 0) + B / (A + B) * (σ * r ^ 2))) :=
    ti.congr fun n => (ei n).symm
  have Tj : Tendsto (fun n => (st n).H j) atTop (𝓝 (common i j A B (st 0) - A / (A + B) * (σ * r ^ 2))) :=
    tj.congr fun n => (ej n).symm
  obtain ⟨y, hy⟩ : ∃ y, y = common i j A B (st 0) + B / (A + B) * (σ * r ^ 2) := ⟨_, rfl⟩
  obtain ⟨z, hz⟩ : ∃ z, z = common i j A B (st 0) - A / (A + B) * (σ * r ^ 2) := ⟨_, rfl⟩
  rw [← hy] at Ti
  rw [← hz] at Tj
  refine ⟨y, z, ?_, Ti, Tj⟩
  have yz : y - z = σ * r ^ 2 := by rw [hy, hz]; field_simp; ring
  have σ1 : |σ| = 1 := by rcases hσ with ⟨h, -⟩ | ⟨h, -⟩ <;> rw [h] <;> norm_num
  have lowlim : min ((st 0).H i) ((st 0).H j) ≤ min y z := by
    refine le_min (ge_of_tendsto' Ti fun n => ?_) (ge_of_tendsto' Tj fun n => ?_)
    · exact (passes_all R n).low.trans (min_le_left _ _)
    · exact (passes_all R n).low.trans (min_le_right _ _)
  have com : (A * y + B * z) / (A + B) = common i j A B (st 0) := by rw [hy, hz]; field_simp; ring
  have hi : crown (m.orifice o) u < max y z := by
    refine R.drowned.trans_le ?_
    rw [← com, div_le_iff₀ (by positivity)]
    have h1 := mul_le_mul_of_nonneg_left (le_max_left y z) A0.le
    have h2 := mul_le_mul_of_nonneg_left (le_max_right y z) B0.le
    linarith
  have lo : centre (m.orifice o) u < min y z := R.low.trans_le lowlim
  have side : (σ = 1 ∧ z < y) ∨ (σ = -1 ∧ y < z) := by
    have : 0 < r ^ 2 := by positivity
    rcases hσ with ⟨h, -⟩ | ⟨h, -⟩
    · left; refine ⟨h, ?_⟩; rw [h] at yz; linarith
    · right; refine ⟨h, ?_⟩; rw [h] at yz; linarith
  have way : (m.orifice o).unidir = true → z < y := by
    intro h
    rcases side with ⟨-, h'⟩ | ⟨h', -⟩
    · exact h'
    · rcases hσ with ⟨h'', -⟩ | ⟨-, h''⟩
      · rw [h''] at h'; norm_num at h'
      · exact absurd (R.way h) (not_lt.mpr h''.le)
  have raw : orificeRaw m.g a (m.Co o) y z u (m.orifice o) = σ * (m.Co o * a * Real.sqrt (2 * m.g) * r) := by
    have ab := orificeRaw_drowned R.g_pos R.a_pos R.Co_pos hi lo way
    rw [yz, abs_mul, σ1, one_mul, abs_of_nonneg (sq_nonneg r), Real.sqrt_sq r0.le] at ab
    have K : 0 ≤ m.Co o * a * Real.sqrt (2 * m.g) * r := by
      have := R.Co_pos
      have := R.a_pos
      positivity
    unfold orificeRaw at ab ⊢
    dsimp only at ab ⊢
    rcases side with ⟨h, h'⟩ | ⟨h, h'⟩
    · have : sgn y z = 1 := if_pos h'.le
      rw [this, one_mul, abs_of_nonneg (Real.sqrt_nonneg _)] at ab
      rw [this, one_mul, h, one_mul, ab]
    · have : sgn y z = -1 := if_neg (not_le.mpr h')
      rw [this, abs_mul, abs_neg, abs_one, one_mul, abs_of_nonneg (Real.sqrt_nonneg _)] at ab
      rw [this, h, ab]
  -- what the vessels exchange
  have ex : σ * r ^ 2 + dt * (1 / A + 1 / B) * (σ * (m.Co o * a * Real.sqrt (2 * m.g) * r)) = (st 0).H i - (st 0).H j := by
    rw [s0, ← er]; unfold coupling; ring
  have A' : A ≠ 0 := A0.ne'
  have B' : B ≠ 0 := B0.ne'
  have S' : A + B ≠ 0 := by positivity
  have t' : dt ≠ 0 := t0.ne'
  have ex' : A * B * (σ * r ^ 2) + dt * (A + B) * (σ * (m.Co o * a * Real.sqrt (2 * m.g) * r)) = A * B * ((st 0).H i - (st 0).H j) := by
    rw [← ex]; field_simp; ring
  generalize σ * (m.Co o * a * Real.sqrt (2 * m.g) * r) = q at *
  generalize σ * r ^ 2 = D at *
  have y' : y = (A * (st 0).H i + B * (st 0).H j + B * D) / (A + B) := by rw [hy]; unfold common; field_simp
  have z' : z = (A * (st 0).H i + B * (st 0).H j - A * D) / (A + B) := by rw [hz]; unfold common; field_simp
  constructor
  · rw [raw, y', div_mul_eq_mul_div, div_eq_iff t', ← mul_right_inj' S']
    have : (A + B) * (A * ((A * (st 0).H i + B * (st 0).H j + B * D) / (A + B) - (st 0).H i))
        = A * B * D - A * B * ((st 0).H i - (st 0).H j) := by field_simp; ring
    rw [this, ← ex']; ring
  · rw [raw, z', div_mul_eq_mul_div, div_eq_iff t', ← mul_right_inj' S']
    have : (A + B) * (B * ((A * (st 0).H i + B * (st 0).H j - A * D) / (A + B) - (st 0).H j))
        = A * B * ((st 0).H i - (st 0).H j) - A * B * D := by field_simp; ring
    rw [this, ← ex']; ring

/-! ### Non-vacuity -/

theorem vessel_passes (h k : ℝ) (hk : 1 < k) (hh : k < h) (h1 : h ≤ 10) :
    ∃ st, VesselPasses vesselModel 0 1 0 3 3 1 20 1 st ∧ (st 0).H 0 = h ∧ (st 0).H 1 = k := by
  have c : vesselModel.Consistent := by
    refine ⟨⟨fun _ h => absurd h (Nat.not_lt_zero _), fun _ _ h => absurd h (Nat.not_lt_zero _),
      fun _ _ h => absurd h (Nat.not_lt_zero _)⟩, fun _ h => absurd h (Nat.not_lt_zero _), fun _ h => absurd h (Nat.not_lt_zero _),
      ?_, ?_, ?_, ?_, ?_, ?_, ?_, ?_⟩ <;> simp [vesselModel, outletModel, exModel]
  have ps : PhysicalStep vesselModel outletGeo (basinInp 20 0) := by
    constructor <;> intros <;> norm_num [vesselModel, outletModel, outletGeo, basinInp, overflowInp, exModel, exGeo, exInp]
  have cw : CleanWork vesselModel exWork.mats :=
    ⟨⟨fun _ _ _ _ => rfl⟩, ⟨fun _ _ _ _ => rfl, fun _ _ => rfl⟩, ⟨fun _ _ _ _ => rfl, fun _ _ => rfl⟩,
      ⟨fun _ _ _ _ => rfl, fun _ _ => rfl⟩⟩
  obtain ⟨first, hf⟩ : ∃ s : Hyd, s = { overflowAt 0 0 with
    H := fun i => if i = 0 then h else k, Qo := fun _ => orificeRaw 2 1 (1 / 2) h k 1 ⟨0, 0, 1, 1, false⟩ } := ⟨_, rfl⟩
  have ex : ∀ s : Hyd, ∃ co x, Pass vesselModel outletGeo (basinInp 20 0) exWork first s co x := fun s =>
    C06_step_exists c ps cw fun _ h => absurd h (Nat.not_lt_zero _)
  choose co x pa using ex
  set st : ℕ → Hyd := fun n => Nat.rec first
    (fun _ s => vesselModel.advance outletGeo (basinInp 20 0) exWork s (co s) (x s)) n with hst
  have H0 : (st 0).H 0 = h := by rw [hst, hf]; rfl
  have H1 : (st 0).H 1 = k := by rw [hst, hf]; rfl
  have ce : centre (vesselModel.orifice 0) 1 = 1 / 2 := by norm_num [centre, Orifice.bottom, Orifice.opening, vesselModel]
  have cr : crown (vesselModel.orifice 0) 1 = 1 := by norm_num [crown, Orifice.bottom, Orifice.opening, vesselModel]
  have zi : ∀ i, vesselModel.z_inv i = 0 := fun _ => rfl
  have md : ∀ i, vesselModel.max_depth i = 10 := fun _ => rfl
  refine ⟨st, ⟨?_, c, by norm_num [vesselModel, outletModel], by norm_num, by norm_num [vesselModel, outletModel], by norm_num, by norm_num,
    by norm_num, ?_, ?_, ?_, ?_, ?_, ?_, ?_, fun n => ?_⟩, H0, H1⟩
  · refine ⟨by norm_num [vesselModel, outletModel, exModel], ⟨rfl, rfl⟩, by norm_num [vesselModel, outletModel, exModel], rfl, rfl,
      by norm_num, fun k hk => absurd hk (Nat.not_lt_zero _), fun o' ho ne => ?_,
      fun k hk => absurd hk (Nat.not_lt_zero _), fun k hk => absurd hk (Nat.not_lt_zero _)⟩
    simp [vesselModel, outletModel, exModel] at ho
    omega
  · rw [cr]; unfold common; rw [H0, H1]; linarith
  · rw [ce, H0, H1]; exact lt_min (by linarith) (by linarith)
  · rw [ce, zi, zi]; norm_num
  · rw [H0, H1, zi, zi, md, md, min_self]; exact max_le (by linarith) (by linarith)
  · rw [H0, H1]; exact hh.ne'
  · intro e; simp [vesselModel] at e
  · rw [H0, H1]; rw [hst, hf]; rfl
  · refine ⟨outletGeo, basinInp 20 0, exWork, co (st n), x (st n), cw, rfl, rfl, rfl, rfl, ?_, ?_, rfl, ?_, pa (st n), rfl⟩
    · simp [basinInp, overflowInp]
    · simp [basinInp, overflowInp]
    have bd : ∀ i, 0 ≤ (st (n + 1)).H i ∧ (st (n + 1)).H i ≤ 10 := by
      intro i
      have hH : (st (n + 1)).H i = min (max (x (st n) i) 0) (0 + 10) := rfl
      rw [hH]
      exact ⟨le_min (le_max_right _ _) (by norm_num), (min_le_right _ _).trans (by norm_num)⟩
    have r : |orificeRaw vesselModel.g 1 (vesselModel.Co 0) ((st (n + 1)).H 0) ((st (n + 1)).H 1) 1 (vesselModel.orifice 0)| ≤ 50 :=
      raw_bound (bd 0) (bd 1)
    have V : ∀ i, outletGeo.V i = 1000 := fun _ => rfl
    rw [V, V, ite_self]
    linarith

/-- A step of 20 s from levels of 9 and 4. -/
example : ∃ (st : ℕ → Hyd) (y z : ℝ), (st 0).H 0 = 9 ∧ (st 0).H 1 = 4 ∧ LevelSolution vesselModel 0 1 0 3 3 1 20 1 (st 0) y z ∧
    Tendsto (fun n => (st n).H 0) atTop (𝓝 y) ∧ Tendsto (fun n => (st n).H 1) atTop (𝓝 z) := by
  obtain ⟨st, R, e, f⟩ := vessel_passes 9 4 (by norm_num) (by norm_num) (by norm_num)
  obtain ⟨y, z, h⟩ := C160_vessels_converge R
  exact ⟨st, y, z, e, f, h⟩

end

end Pipedream.Step
