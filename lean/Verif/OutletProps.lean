import Verif.OutletLemmas
import Verif.SettleProps
import Verif.OrificeMonoProps

/-!
# C190: a basin with a submerged outlet settles at its steady level
-/

namespace Pipedream.Step

open Pipedream.Sweep Pipedream.Link Pipedream.Superlink Pipedream.Control Pipedream.Network Settle Filter Topology

variable {m : Model} {geo : Geo} {inp : Inputs} {wk : Work} {prev cur : Hyd} {co : Coef ℝ} {x : ℕ → ℝ} {i o : ℕ}

noncomputable section

/-! ### Specification -/

/-- Superjunction `i` drains through orifice `o` and is joined to nothing else. -/
structure Tank (m : Model) (i o : ℕ) : Prop where
  lt : i < m.M
  free : m.bc i = false
  orifice : o < m.n_o
  src : m.Juo o = i
  dst : m.Jdo o ≠ i
  links : ∀ k, k < m.ix.NK → m.Ju k ≠ i ∧ m.Jd k ≠ i
  orifices : ∀ o', o' < m.n_o → o' ≠ o → m.Juo o' ≠ i ∧ m.Jdo o' ≠ i
  weirs : ∀ w, w < m.n_w → m.Juw w ≠ i ∧ m.Jdw w ≠ i
  pumps : ∀ p, p < m.n_p → m.Jup p ≠ i ∧ m.Jdp p ≠ i

/-- Elevation of the centre of the opening. -/
def centre (o : Orifice) (u : ℝ) : ℝ := o.bottom + o.opening u / 2

/-- Elevation of its crown. -/
def crown (o : Orifice) (u : ℝ) : ℝ := o.bottom + o.opening u

/-- A run of steps of size `dt` in which tank `i` has the surface `A`, receives `q` and discharges freely through orifice `o` of
area `a` at setting `u`. In no step does the orifice pass more than the tank holds. What happens elsewhere in the network is not
restricted. -/
structure OutletRun (m : Model) (i o : ℕ) (A a dt q u : ℝ) (st : ℕ → Hyd) : Prop where
  tank : Tank m i o
  consistent : m.Consistent
  g_pos : 0 < m.g
  a_pos : 0 < a
  Co_pos : 0 < m.Co o
  A_pos : 0 < A
  dt_pos : 0 < dt
  opening : 0 ≤ (m.orifice o).opening u
  above : m.z_inv i ≤ crown (m.orifice o) u
  start : (st 0).Qo o = orificeRaw m.g a (m.Co o) ((st 0).H i) ((st 0).H (m.Jdo o)) u (m.orifice o)
  free : ∀ n, (st n).H (m.Jdo o) ≤ centre (m.orifice o) u
  step : ∀ n, ∃ (geo : Geo) (inp : Inputs) (wk : Work) (co : Coef ℝ) (x : ℕ → ℝ), CleanWork m wk.mats ∧ geo.As i = A ∧
    geo.Ao o = a ∧ inp.dt = dt ∧ inp.Q_in i = q ∧ inp.u_o o = u ∧
    dt * orificeRaw m.g a (m.Co o) ((st (n + 1)).H i) ((st (n + 1)).H (m.Jdo o)) u (m.orifice o) ≤ geo.V i ∧
    Pass m geo inp wk (st n) (st n) co x ∧ st (n + 1) = m.advance geo inp wk (st n) co x

/-- The level above the centre at which the outlet carries the inflow; it lies above the crown, as does the first level, and
neither exceeds the tank. -/
structure OutletCarries (m : Model) (i o : ℕ) (a q u : ℝ) (st : ℕ → Hyd) (hs : ℝ) : Prop where
  carries : ∀ Hd, Hd ≤ centre (m.orifice o) u →
    orificeRaw m.g a (m.Co o) (centre (m.orifice o) u + hs) Hd u (m.orifice o) = q
  drowned : crown (m.orifice o) u < centre (m.orifice o) u + hs
  inflow : 0 < q
  first : crown (m.orifice o) u < (st 0).H i
  room : max ((st 0).H i) (centre (m.orifice o) u + hs) ≤ m.z_inv i + m.max_depth i

/-! ### One step -/

/-- The solver's head of the tank. -/
theorem tank_balance (b : Tank m i o) (c : m.Consistent) (cw : CleanWork m wk.mats) (p : Pass m geo inp wk prev cur co x) :
    geo.As i / inp.dt * (x i - prev.H i)
      = inp.Q_in i - (m.oLin geo inp wk cur o).eval (x i) (x (m.Jdo o)) := by
  have h := ((solves_iff (m.net geo inp wk cur co) inp.dt wk.mats cw.mats (wired c) prev.H inp.Q_in
    (inp.H_bc.getD cur.H) x).mp p.solve i b.lt).2 b.free
  unfold Network.Balanced at h
  have xi : (m.net geo inp wk cur co).links.xiSum i = 0 := by
    refine Finset.sum_eq_zero fun k hk => ?_
    have := b.links k (Finset.mem_range.mp hk)
    change (if m.Ju k = i then _ else _) + (if m.Jd k = i then _ else _) = _
    rw [if_neg this.1, if_neg this.2, add_zero]
  have l : (m.net geo inp wk cur co).links.inflow x i = 0 := by
    refine Finset.sum_eq_zero fun k hk => ?_
    have := b.links k (Finset.mem_range.mp hk)
    change (if m.Jd k = i then _ else _) - (if m.Ju k = i then _ else _) = _
    rw [if_neg this.1, if_neg this.2, sub_zero]
  have we : (m.net geo inp wk cur co).weirs.inflow x i = 0 := by
    refine Finset.sum_eq_zero fun k hk => ?_
    have := b.weirs k (Finset.mem_range.mp hk)
    change (if m.Jdw k = i then _ else _) - (if m.Juw k = i then _ else _) = _
    rw [if_neg this.1, if_neg this.2, sub_zero]
  have pu : (m.net geo inp wk cur co).pumps.inflow x i = 0 := by
    refine Finset.sum_eq_zero fun k hk => ?_
    have := b.pumps k (Finset.mem_range.mp hk)
    change (if m.Jdp k = i then _ else _) - (if m.Jup k = i then _ else _) = _
    rw [if_neg this.1, if_neg this.2, sub_zero]
  have orf : (m.net geo inp wk cur co).orifices.inflow x i = -(m.oLin geo inp wk cur o).eval (x i) (x (m.Jdo o)) := by
    refine (Finset.sum_eq_single_of_mem o (Finset.mem_range.mpr b.orifice) ?_).trans ?_
    rotate_left
    · change (if m.Jdo o = i then _ else _) - (if m.Juo o = i then _ else _) = _
      rw [if_neg b.dst, if_pos b.src, zero_sub]
      congr 1
      change (m.oLin geo inp wk cur o).alpha * x (m.Juo o) + (m.oLin geo inp wk cur o).beta * x (m.Jdo o)
        + (m.oLin geo inp wk cur o).chi = _
      rw [b.src]; rfl
    · intro k hk ne
      have := b.orifices k (Finset.mem_range.mp hk) ne
      change (if m.Jdo k = i then _ else _) - (if m.Juo k = i then _ else _) = _
      rw [if_neg this.1, if_neg this.2, sub_zero]
  rw [xi, l, we, pu, orf, add_zero] at h
  change geo.As i / inp.dt * (x i - prev.H i) = _ at h
  linarith

theorem orificeLin_free {old : Lin} {g Q Ao Co Hu Hd u : ℝ} {o : Orifice} (ho : 0 ≤ o.opening u) (hu : crown o u < Hu)
    (hd : Hd ≤ centre o u) (y z : ℝ) :
    (orificeLin old g Q Ao Co Hu Hd u o).eval y z = safeDivide (2 * g * Co ^ 2 * Ao ^ 2) |Q| * (y - centre o u) := by
  unfold crown at hu
  unfold centre at hd
  have lt : Hd < Hu := by linarith
  have o1 : omega Hu Hd = 1 := if_pos lt.le
  have s1 : sgn Hu Hd = 1 := if_pos lt.le
  unfold Orifice.opening at hu hd ho
  unfold Orifice.bottom at hu hd
  have c0 : omega Hu Hd * Hu + (1 - omega Hu Hd) * Hd > o.z_o + o.z_inv + (o.tau * o.y_max * u) := by rw [o1]; linarith
  have c1 : ¬ ((1 - omega Hu Hd) * Hu + omega Hu Hd * Hd > o.z_o + o.z_inv + (o.tau * o.y_max * u / 2)) := by
    rw [o1]; linarith
  have c3 : ¬ (Hd ≥ Hu ∧ o.unidir = true) := fun h => absurd h.1 (not_le.mpr lt)
  simp only [orificeLin, orificeCoef, c0, c1, c3, not_true, not_false_iff, and_true, and_false, false_and, or_self, if_true, if_false,
    gammaO, Lin.eval]
  rw [o1, s1]
  unfold centre Orifice.opening Orifice.bottom
  ring

theorem orificeRaw_free {g Ao Co Hu Hd u : ℝ} {o : Orifice} (hg : 0 < g) (ha : 0 < Ao) (hC : 0 < Co) (ho : 0 ≤ o.opening u)
    (hu : crown o u < Hu) (hd : Hd ≤ centre o u) :
    orificeRaw g Ao Co Hu Hd u o = Co * Ao * Real.sqrt (2 * g) * Real.sqrt (Hu - centre o u) := by
  have hu' := hu
  have hd' := hd
  unfold crown at hu
  unfold centre at hd
  have lt : Hd < Hu := by linarith
  rw [orificeRaw_forward hg.le ho lt.le (fun _ => lt), drive, if_pos hu, max_eq_right hd,
    show 2 * g * Co ^ 2 * Ao ^ 2 = (Co * Ao) ^ 2 * (2 * g) by ring, mul_assoc, Real.sqrt_mul (by positivity),
    Real.sqrt_sq (by positivity), Real.sqrt_mul (by positivity)]
  unfold centre
  ring

variable {A a dt q u hs : ℝ} {st : ℕ → Hyd}

theorem outlet_flow (R : OutletRun m i o A a dt q u st) (n : ℕ) (h : crown (m.orifice o) u < (st n).H i) :
    (st n).Qo o = m.Co o * a * Real.sqrt (2 * m.g) * Real.sqrt ((st n).H i - centre (m.orifice o) u) := by
  rw [← orificeRaw_free R.g_pos R.a_pos R.Co_pos R.opening h (R.free n)]
  cases n with
  | zero => exact R.start
  | succ n =>
    obtain ⟨geo, inp, wk, co, x, -, -, ea, ed, -, eu, hV, -, es⟩ := R.step n
    have d0 := R.dt_pos
    have cl : centre (m.orifice o) u ≤ crown (m.orifice o) u := by
      have := R.opening
      unfold centre crown; linarith
    have fr := R.free (n + 1)
    have raw0 : 0 ≤ orificeRaw m.g a (m.Co o) ((st (n + 1)).H i) ((st (n + 1)).H (m.Jdo o)) u (m.orifice o) := by
      rw [orificeRaw_free R.g_pos R.a_pos R.Co_pos R.opening h fr]
      have := R.a_pos
      have := R.Co_pos
      positivity
    have e : (st (n + 1)).Qo o = orificeFlow m.g (geo.Ao o) (m.Co o) ((st (n + 1)).H (m.Juo o)) ((st (n + 1)).H (m.Jdo o))
        (inp.u_o o) (geo.V (m.Juo o)) (geo.V (m.Jdo o)) inp.dt (m.orifice o) := by rw [es]; rfl
    rw [e, R.tank.src, ea, eu, ed, orificeFlow]
    refine orificeLimit_id ?_
    rw [if_pos (show (st (n + 1)).H (m.Jdo o) < (st (n + 1)).H i by linarith), abs_of_nonneg raw0, le_div_iff₀ d0, mul_comm]
    exact hV

/-- The next head of the tank. -/
theorem tank_next (R : OutletRun m i o A a dt q u st) (n : ℕ) (h : crown (m.orifice o) u < (st n).H i) :
    (st (n + 1)).H i = min (max (centre (m.orifice o) u + ((st n).H i - centre (m.orifice o) u + dt / A * q) /
      (1 + dt / A * (m.Co o * a * Real.sqrt (2 * m.g) / Real.sqrt ((st n).H i - centre (m.orifice o) u))))
        (m.z_inv i)) (m.z_inv i + m.max_depth i) := by
  have A0 := R.A_pos
  have d0 := R.dt_pos
  have a0 := R.a_pos
  have C0 := R.Co_pos
  have g0 := R.g_pos
  have fl := outlet_flow R n h
  have lt : 0 < (st n).H i - centre (m.orifice o) u := by
    have := R.opening
    unfold centre crown at *; linarith
  obtain ⟨geo, inp, wk, co, x, cw, eA, ea, edt, eq, eu, -, pa, es⟩ := R.step n
  have b := tank_balance R.tank R.consistent cw pa
  have z : (m.oLin geo inp wk (st n) o).eval (x i) (x (m.Jdo o)) =
      m.Co o * a * Real.sqrt (2 * m.g) / Real.sqrt ((st n).H i - centre (m.orifice o) u) * (x i - centre (m.orifice o) u) := by
    unfold Model.oLin
    rw [R.tank.src, eu, ea, orificeLin_free R.opening h (R.free n), fl, safeDivide_eq]
    have s1 : 0 < Real.sqrt ((st n).H i - centre (m.orifice o) u) := Real.sqrt_pos.mpr lt
    have s2 : 0 < Real.sqrt (2 * m.g) := Real.sqrt_pos.mpr (by positivity)
    rw [abs_of_pos (by positivity)]
    have e2 : 2 * m.g = Real.sqrt (2 * m.g) * Real.sqrt (2 * m.g) := (Real.mul_self_sqrt (by positivity)).symm
    rw [e2, Real.sqrt_mul_self s2.le]
    congr 1
    field_simp
  rw [eA, edt, eq, z] at b
  have xe : x i = centre (m.orifice o) u + ((st n).H i - centre (m.orifice o) u + dt / A * q) /
      (1 + dt / A * (m.Co o * a * Real.sqrt (2 * m.g) / Real.sqrt ((st n).H i - centre (m.orifice o) u))) := by
    have p0 : 0 ≤ m.Co o * a * Real.sqrt (2 * m.g) / Real.sqrt ((st n).H i - centre (m.orifice o) u) := by positivity
    generalize m.Co o * a * Real.sqrt (2 * m.g) / Real.sqrt ((st n).H i - centre (m.orifice o) u) = ρ at *
    have D : 0 < 1 + dt / A * ρ := by positivity
    rw [← sub_eq_iff_eq_add', eq_div_iff D.ne']
    field_simp at b ⊢
    linarith
  rw [es]
  change min (max (x i) _) _ = _
  rw [xe]

/-! ### Runs -/

/-- The level above the centre relative to the steady one. -/
def relCentre (m : Model) (i o : ℕ) (u hs : ℝ) (s : Hyd) : ℝ := (s.H i - centre (m.orifice o) u) / hs

theorem OutletCarries.pos (C : OutletCarries m i o a q u st hs) (R : OutletRun m i o A a dt q u st) : 0 < hs := by
  have := C.drowned
  have := R.opening
  unfold centre crown at *; linarith

theorem OutletCarries.eq (C : OutletCarries m i o a q u st hs) (R : OutletRun m i o A a dt q u st) :
    m.Co o * a * Real.sqrt (2 * m.g) * Real.sqrt hs = q := by
  have := C.carries _ le_rfl
  rw [orificeRaw_free R.g_pos R.a_pos R.Co_pos R.opening C.drowned le_rfl, add_sub_cancel_left] at this
  exact this

/-- One step: the level stays between the present and the steady one, above the crown. -/
theorem relCentre_next (R : OutletRun m i o A a dt q u st) (C : OutletCarries m i o a q u st hs) (n : ℕ)
    (h : crown (m.orifice o) u < (st n).H i) (hi : (st n).H i ≤ max ((st 0).H i) (centre (m.orifice o) u + hs)) :
    relCentre m i o u hs (st (n + 1)) = drain (dt * q / (A * hs)) (relCentre m i o u hs (st n)) ∧
      crown (m.orifice o) u < (st (n + 1)).H i ∧ (st (n + 1)).H i ≤ max ((st 0).H i) (centre (m.orifice o) u + hs) := by
  have A0 := R.A_pos
  have d0 := R.dt_pos
  have h0 := C.pos R
  have q0 := C.inflow
  have dr := C.drowned
  have rm := C.room
  have ab := R.above
  have ce := C.eq R
  have lt : 0 < (st n).H i - centre (m.orifice o) u := by
    have := R.opening
    unfold centre crown at *; linarith
  have nx := tank_next R n h
  have a0 : 0 < dt * q / (A * hs) := by positivity
  have r0 : 0 < relCentre m i o u hs (st n) := div_pos lt h0
  set r := relCentre m i o u hs (st n) with hr
  have er : (st n).H i = centre (m.orifice o) u + hs * r := by
    rw [hr]; unfold relCentre; field_simp; ring
  have val : ((st n).H i - centre (m.orifice o) u + dt / A * q) /
      (1 + dt / A * (m.Co o * a * Real.sqrt (2 * m.g) / Real.sqrt ((st n).H i - centre (m.orifice o) u)))
        = hs * drain (dt * q / (A * hs)) r := by
    rw [er, add_sub_cancel_left, Real.sqrt_mul h0.le, drain]
    have s1 : 0 < Real.sqrt hs := Real.sqrt_pos.mpr h0
    have s2 : 0 < Real.sqrt r := Real.sqrt_pos.mpr r0
    have ss : Real.sqrt hs * Real.sqrt hs = hs := Real.mul_self_sqrt h0.le
    have e : dt / A * (m.Co o * a * Real.sqrt (2 * m.g) / (Real.sqrt hs * Real.sqrt r)) = dt * q / (A * hs) / Real.sqrt r := by
      rw [← ce]
      generalize m.Co o * a * Real.sqrt (2 * m.g) = c
      generalize Real.sqrt hs = v at *
      rw [← ss]
      field_simp
    rw [e]
    have D : 0 < 1 + dt * q / (A * hs) / Real.sqrt r := by positivity
    generalize 1 + dt * q / (A * hs) / Real.sqrt r = D' at *
    field_simp
  rw [val] at nx
  have bd : crown (m.orifice o) u < centre (m.orifice o) u + hs * drain (dt * q / (A * hs)) r ∧
      centre (m.orifice o) u + hs * drain (dt * q / (A * hs)) r ≤ max ((st 0).H i) (centre (m.orifice o) u + hs) := by
    rcases le_total 1 r with h1 | h1
    · have d := drain_above a0 h1
      have u1 := mul_le_mul_of_nonneg_left d.1 h0.le
      have u2 := mul_le_mul_of_nonneg_left d.2 h0.le
      exact ⟨by linarith, by linarith⟩
    · have d := drain_below a0 r0 h1
      have u1 := mul_le_mul_of_nonneg_left d.1 h0.le
      have u2 := mul_le_mul_of_nonneg_left d.2 h0.le
      exact ⟨by linarith, by have := le_max_right ((st 0).H i) (centre (m.orifice o) u + hs); linarith⟩
  rw [max_eq_left (by linarith), min_eq_left (by linarith)] at nx
  rw [nx]
  refine ⟨?_, bd⟩
  unfold relCentre
  rw [nx, add_sub_cancel_left, mul_div_cancel_left₀ _ h0.ne']

theorem outlet_all (R : OutletRun m i o A a dt q u st) (C : OutletCarries m i o a q u st hs) (n : ℕ) :
    crown (m.orifice o) u < (st n).H i ∧ (st n).H i ≤ max ((st 0).H i) (centre (m.orifice o) u + hs) := by
  induction n with
  | zero => exact ⟨C.first, le_max_left _ _⟩
  | succ n ih => exact (relCentre_next R C n ih.1 ih.2).2

/-! ### C190 -/

/-- **C190 (one way).** A level above the steady one falls and a level below rises, neither past the steady one, whatever the
step. -/
theorem C190_oneway (R : OutletRun m i o A a dt q u st) (C : OutletCarries m i o a q u st hs) (n : ℕ) :
    (centre (m.orifice o) u + hs ≤ (st n).H i →
      centre (m.orifice o) u + hs ≤ (st (n + 1)).H i ∧ (st (n + 1)).H i ≤ (st n).H i) ∧
    ((st n).H i ≤ centre (m.orifice o) u + hs →
      (st n).H i ≤ (st (n + 1)).H i ∧ (st (n + 1)).H i ≤ centre (m.orifice o) u + hs) := by
  have A0 := R.A_pos
  have d0 := R.dt_pos
  have h0 := C.pos R
  have q0 := C.inflow
  have a0 : 0 < dt * q / (A * hs) := by positivity
  have al := outlet_all R C n
  have nx := (relCentre_next R C n al.1 al.2).1
  have lt : 0 < (st n).H i - centre (m.orifice o) u := by
    have := R.opening
    have := al.1
    unfold centre crown at *; linarith
  have r0 : 0 < relCentre m i o u hs (st n) := div_pos lt h0
  have er : ∀ n, (st n).H i = centre (m.orifice o) u + hs * relCentre m i o u hs (st n) := fun n => by
    unfold relCentre; field_simp; ring
  rw [er n, er (n + 1), nx]
  generalize relCentre m i o u hs (st n) = r at *
  constructor
  · intro h
    have d := drain_above a0 (show 1 ≤ r by nlinarith)
    have u1 := mul_le_mul_of_nonneg_left d.1 h0.le
    have u2 := mul_le_mul_of_nonneg_left d.2 h0.le
    exact ⟨by linarith, by linarith⟩
  · intro h
    have d := drain_below a0 r0 (show r ≤ 1 by nlinarith)
    have u1 := mul_le_mul_of_nonneg_left d.1 h0.le
    have u2 := mul_le_mul_of_nonneg_left d.2 h0.le
    exact ⟨by linarith, by linarith⟩

/-- **C190 (rate).** The level approaches the steady one geometrically, whatever the step. -/
theorem C190_rate (R : OutletRun m i o A a dt q u st) (C : OutletCarries m i o a q u st hs) {d : ℝ}
    (hd : d = max (((st 0).H i - centre (m.orifice o) u) / hs) (hs / ((st 0).H i - centre (m.orifice o) u)) - 1) :
    drainRate (dt * q / (A * hs)) (((st 0).H i - centre (m.orifice o) u) / hs) < 1 ∧
      ∀ n, |(st n).H i - (centre (m.orifice o) u + hs)| ≤
        drainRate (dt * q / (A * hs)) (((st 0).H i - centre (m.orifice o) u) / hs) ^ n * (hs * d) := by
  have A0 := R.A_pos
  have d0 := R.dt_pos
  have h0 := C.pos R
  have q0 := C.inflow
  have a0 : 0 < dt * q / (A * hs) := by positivity
  have lt : 0 < (st 0).H i - centre (m.orifice o) u := by
    have := R.opening
    have := C.first
    unfold centre crown at *; linarith
  have r0 : 0 < relCentre m i o u hs (st 0) := div_pos lt h0
  have run := drain_run a0 (r := fun n => relCentre m i o u hs (st n)) r0 fun n _ =>
    (relCentre_next R C n (outlet_all R C n).1 (outlet_all R C n).2).1
  have ed : off (relCentre m i o u hs (st 0)) = d := by rw [hd, off, relCentre, one_div_div]
  rw [ed] at run
  refine ⟨(drainRate_lt a0).2, fun n => ?_⟩
  have := (abs_le_off (run n).1).trans (run n).2.2
  have e : (st n).H i - (centre (m.orifice o) u + hs) = hs * (relCentre m i o u hs (st n) - 1) := by
    unfold relCentre; field_simp; ring
  rw [e, abs_mul, abs_of_pos h0]
  exact (mul_le_mul_of_nonneg_left this h0.le).trans (le_of_eq (by unfold relCentre; ring))

/-- **C190 (settling).** Whatever its size, its first level and the step, a tank with a submerged outlet settles at the level at
which the outlet carries the inflow. -/
theorem C190_settles (R : OutletRun m i o A a dt q u st) (C : OutletCarries m i o a q u st hs) :
    Tendsto (fun n => (st n).H i) atTop (𝓝 (centre (m.orifice o) u + hs)) := by
  obtain ⟨k1, h⟩ := C190_rate R C rfl
  have A0 := R.A_pos
  have d0 := R.dt_pos
  have h0 := C.pos R
  have q0 := C.inflow
  have k0 := (drainRate_lt (a := dt * q / (A * hs)) (r := ((st 0).H i - centre (m.orifice o) u) / hs) (by positivity)).1
  rw [tendsto_iff_dist_tendsto_zero]
  have z := (tendsto_pow_atTop_nhds_zero_of_lt_one k0.le k1).mul_const
    (hs * (max (((st 0).H i - centre (m.orifice o) u) / hs) (hs / ((st 0).H i - centre (m.orifice o) u)) - 1))
  rw [zero_mul] at z
  exact squeeze_zero (fun _ => dist_nonneg) (fun n => by rw [Real.dist_eq]; exact h n) z

/-! ### A case meeting the hypotheses -/

/-- A tank (0) whose outlet, from 0 to 1, opens to a held level (1). -/
def outletModel : Model :=
  { exModel false with
    ix := { NK := 0, nk := fun _ => 2, I_1k := fun _ => 0, i_1k := fun _ => 0 }, N := 0, g := 2, Co := fun _ => 1 / 2
    bc := fun i => i == 1, n_w := 0, n_p := 0, orifice := fun _ => ⟨0, 0, 1, 1, true⟩ }

def outletGeo : Geo := { exGeo with V := fun _ => 1000, Ao := fun _ => 1 }

theorem tank_run (H0 : ℝ) : ∃ st, OutletRun outletModel 0 0 3 1 20 1 1 st ∧ (st 0).H 0 = H0 := by
  have c : outletModel.Consistent := by
    refine ⟨⟨fun _ h => absurd h (Nat.not_lt_zero _), fun _ _ h => absurd h (Nat.not_lt_zero _),
      fun _ _ h => absurd h (Nat.not_lt_zero _)⟩, fun _ h => absurd h (Nat.not_lt_zero _), fun _ h => absurd h (Nat.not_lt_zero _),
      ?_, ?_, ?_, ?_, ?_, ?_, ?_, ?_⟩ <;> simp [outletModel, exModel]
  have ps : PhysicalStep outletModel outletGeo (basinInp 20 1) := by
    constructor <;> intros <;> norm_num [outletModel, outletGeo, basinInp, overflowInp, exModel, exGeo, exInp]
  have cw : CleanWork outletModel exWork.mats :=
    ⟨⟨fun _ _ _ _ => rfl⟩, ⟨fun _ _ _ _ => rfl, fun _ _ => rfl⟩, ⟨fun _ _ _ _ => rfl, fun _ _ => rfl⟩,
      ⟨fun _ _ _ _ => rfl, fun _ _ => rfl⟩⟩
  have ex : ∀ s : Hyd, ∃ co x, Pass outletModel outletGeo (basinInp 20 1) exWork s s co x := fun s =>
    C06_step_exists c ps cw fun _ h => absurd h (Nat.not_lt_zero _)
  choose co x pa using ex
  set st : ℕ → Hyd := fun n => Nat.rec
    { overflowAt H0 0 with Qo := fun _ => orificeRaw 2 1 (1 / 2) H0 0 1 ⟨0, 0, 1, 1, true⟩ }
    (fun _ s => outletModel.advance outletGeo (basinInp 20 1) exWork s (co s) (x s)) n with hst
  have low : ∀ n, (st n).H 1 = 0 := by
    intro n
    induction n with
    | zero => simp [hst, overflowAt]
    | succ n ih =>
      have e := (((solves_iff (outletModel.net outletGeo (basinInp 20 1) exWork (st n) (co (st n))) 20 exWork.mats cw.mats (wired c)
        (st n).H (basinInp 20 1).Q_in ((basinInp 20 1).H_bc.getD (st n).H) (x (st n))).mp (pa (st n)).solve) 1
        (by simp [Model.net, outletModel, exModel])).1 rfl
      have e : x (st n) 1 = 0 := e.trans ih
      change min (max (x (st n) 1) 0) (0 + 10) = 0
      rw [e]; norm_num
  have ce : centre (outletModel.orifice 0) 1 = 1 / 2 := by norm_num [centre, Orifice.bottom, Orifice.opening, outletModel]
  have cr : crown (outletModel.orifice 0) 1 = 1 := by norm_num [crown, Orifice.bottom, Orifice.opening, outletModel]
  have op : (outletModel.orifice 0).opening 1 = 1 := by norm_num [Orifice.opening, outletModel]
  refine ⟨st, ⟨?_, c, by norm_num [outletModel], by norm_num, by norm_num [outletModel], by norm_num, by norm_num, by rw [op]; norm_num,
    by rw [cr]; norm_num [outletModel, exModel], rfl, fun n => ?_, fun n => ?_⟩, rfl⟩
  · refine ⟨by norm_num [outletModel, exModel], rfl, by norm_num [outletModel, exModel], rfl,
      by norm_num [outletModel, exModel], fun k hk => absurd hk (Nat.not_lt_zero _), fun o' ho ne => ?_,
      fun k hk => absurd hk (Nat.not_lt_zero _), fun k hk => absurd hk (Nat.not_lt_zero _)⟩
    simp [outletModel, exModel] at ho
    omega
  · rw [ce]
    exact (low n).le.trans (by norm_num)
  · refine ⟨outletGeo, basinInp 20 1, exWork, co (st n), x (st n), cw, rfl, rfl, rfl, rfl, rfl, ?_, pa (st n), rfl⟩
    have hH : (st (n + 1)).H 0 = min (max (x (st n) 0) 0) (0 + 10) := rfl
    have b0 : 0 ≤ (st (n + 1)).H 0 := by rw [hH]; exact le_min (le_max_right _ _) (by norm_num)
    have b1 : (st (n + 1)).H 0 ≤ 10 := by rw [hH]; exact (min_le_right _ _).trans (by norm_num)
    have l1 : (st (n + 1)).H (outletModel.Jdo 0) = 0 := low (n + 1)
    have V : outletGeo.V 0 = 1000 := rfl
    rw [l1, V]
    generalize (st (n + 1)).H 0 = y at *
    rcases b0.eq_or_lt with e | y0
    · have e : orificeRaw outletModel.g 1 (outletModel.Co 0) y 0 1 (outletModel.orifice 0) = 0 := by
        rw [← e]; norm_num [orificeRaw, orificeCoef, outletModel]
      rw [e]; norm_num
    · rw [orificeRaw_forward (by norm_num [outletModel]) (by rw [op]; norm_num) y0.le (fun _ => y0)]
      have d : drive (outletModel.orifice 0).bottom ((outletModel.orifice 0).opening 1) y 0 ≤ 10 := by
        have : (outletModel.orifice 0).bottom = 0 := by norm_num [Orifice.bottom, outletModel]
        rw [op, this, drive]
        split_ifs
        · have := le_max_right (0 : ℝ) (0 + 1 / 2)
          linarith
        · linarith
      have : Real.sqrt (2 * outletModel.g * outletModel.Co 0 ^ 2 * 1 ^ 2 *
          drive (outletModel.orifice 0).bottom ((outletModel.orifice 0).opening 1) y 0) ≤ 50 := by
        rw [Real.sqrt_le_left (by norm_num)]
        have : 2 * outletModel.g * outletModel.Co 0 ^ 2 * 1 ^ 2 = 1 := by norm_num [outletModel]
        rw [this]; linarith
      linarith

/-- From a level of 9 with a step of 20, in which nearly seven metres flow in, the tank settles at 1.5. -/
example : ∃ st, OutletRun outletModel 0 0 3 1 20 1 1 st ∧ (st 0).H 0 = 9 ∧ Tendsto (fun n => (st n).H 0) atTop (𝓝 1.5) := by
  obtain ⟨st, R, e⟩ := tank_run 9
  have ce : centre (outletModel.orifice 0) 1 = 1 / 2 := by norm_num [centre, Orifice.bottom, Orifice.opening, outletModel]
  have cr : crown (outletModel.orifice 0) 1 = 1 := by norm_num [crown, Orifice.bottom, Orifice.opening, outletModel]
  have C : OutletCarries outletModel 0 0 1 1 1 st 1 := by
    refine ⟨fun Hd hd => ?_, by rw [cr, ce]; norm_num, one_pos, by rw [cr, e]; norm_num, ?_⟩
    · rw [orificeRaw_free R.g_pos R.a_pos R.Co_pos R.opening (by rw [cr, ce]; norm_num) hd, add_sub_cancel_left, Real.sqrt_one]
      have : Real.sqrt (2 * outletModel.g) = 2 := by
        rw [show 2 * outletModel.g = 2 ^ 2 by norm_num [outletModel]]
        exact Real.sqrt_sq (by norm_num)
      rw [this]; norm_num [outletModel]
    · rw [ce, e]
      norm_num [outletModel, exModel]
  refine ⟨st, R, e, ?_⟩
  have t := C190_settles R C
  rw [ce] at t
  norm_num at t ⊢
  exact t

end

end Pipedream.Step
