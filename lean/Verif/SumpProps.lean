import Verif.SettleProps

/-!
# C192: a pumped sump is kept near the starting level of its pump, or settles

A superjunction with a constant inflow which is drained by one pump to a held level, over a run of any length.
-/

namespace Pipedream.Step

open Pipedream.Sweep Pipedream.Link Pipedream.Superlink Pipedream.Control Pipedream.Network Settle Filter Topology

variable {m : Model} {geo : Geo} {inp : Inputs} {wk : Work} {prev cur : Hyd} {co : Coef ℝ} {x : ℕ → ℝ} {i p : ℕ}

noncomputable section

/-! ### Specification -/

/-- Level at which the pump starts. -/
def startLevel (p : Pump) : ℝ := p.z_inv + p.z_p

/-- A run of steps of size `dt` in which sump `i` has the surface `A`, receives `q` and is drained by pump `p` at speed `u` to a
superjunction held at `Hd`. What happens elsewhere in the network is not restricted. -/
structure PumpRun (m : Model) (i p : ℕ) (A dt q u Hd : ℝ) (st : ℕ → Hyd) : Prop where
  sump : Sump m i p
  consistent : m.Consistent
  valid : (m.pump p).Valid
  A_pos : 0 < A
  dt_pos : 0 < dt
  u_pos : 0 < u
  q_nonneg : 0 ≤ q
  floor : m.z_inv i ≤ (st 0).H i
  above : m.z_inv i ≤ startLevel (m.pump p)
  held : m.bc (m.Jdp p) = true
  start : (st 0).Qp p = pumpFlow ((st 0).H i) ((st 0).H (m.Jdp p)) u (m.pump p)
  level : ∀ n, (st n).H (m.Jdp p) = Hd
  step : ∀ n, ∃ (geo : Geo) (inp : Inputs) (wk : Work) (co : Coef ℝ) (x : ℕ → ℝ), CleanWork m wk.mats ∧ geo.As i = A ∧
    inp.dt = dt ∧ inp.Q_in i = q ∧ inp.u_p p = u ∧ inp.H_bc.getD (st n).H (m.Jdp p) = Hd ∧
    Pass m geo inp wk (st n) (st n) co x ∧ st (n + 1) = m.advance geo inp wk (st n) co x

/-! ### One step -/

/-- The solver's head of the sump. -/
theorem sump_balance (b : Sump m i p) (c : m.Consistent) (cw : CleanWork m wk.mats) (pa : Pass m geo inp wk prev cur co x) :
    geo.As i / inp.dt * (x i - prev.H i)
      = inp.Q_in i - (m.pLin inp wk cur p).eval (x i) (x (m.Jdp p)) := by
  have h := ((solves_iff (m.net geo inp wk cur co) inp.dt wk.mats cw.mats (wired c) prev.H inp.Q_in
    (inp.H_bc.getD cur.H) x).mp pa.solve i b.lt).2 b.free
  unfold Network.Balanced at h
  have xi : (m.net geo inp wk cur co).links.xiSum i = 0 := by
    refine Finset.sum_eq_zero fun k hk => ?_
    have := b.links k (Finset.mem_range.mp hk)
    change (if m.Ju k = i then _ else _) + (if m.Jd k = i then _ else _) = _
    rw [if_neg this.1, if_neg this.2, add_zero]
  have l : (m.net geo inp wk cur co).links.inflow x i = 0 := by
    refine Finset.sum_eq_zero fun k hk => ?_
    have := b.links k (Finset.mem_range.mp hk)
    change (if m.Jd k = i then _ else _) - (if m.Ju k = i then _ else _) = _
    rw [if_neg this.1, if_neg this.2, sub_zero]
  have o : (m.net geo inp wk cur co).orifices.inflow x i = 0 := by
    refine Finset.sum_eq_zero fun k hk => ?_
    have := b.orifices k (Finset.mem_range.mp hk)
    change (if m.Jdo k = i then _ else _) - (if m.Juo k = i then _ else _) = _
    rw [if_neg this.1, if_neg this.2, sub_zero]
  have we : (m.net geo inp wk cur co).weirs.inflow x i = 0 := by
    refine Finset.sum_eq_zero fun k hk => ?_
    have := b.weirs k (Finset.mem_range.mp hk)
    change (if m.Jdw k = i then _ else _) - (if m.Juw k = i then _ else _) = _
    rw [if_neg this.1, if_neg this.2, sub_zero]
  have pu : (m.net geo inp wk cur co).pumps.inflow x i = -(m.pLin inp wk cur p).eval (x i) (x (m.Jdp p)) := by
    refine (Finset.sum_eq_single_of_mem p (Finset.mem_range.mpr b.pump) ?_).trans ?_
    rotate_left
    · change (if m.Jdp p = i then _ else _) - (if m.Jup p = i then _ else _) = _
      rw [if_neg b.dst, if_pos b.src, zero_sub]
      congr 1
      change (m.pLin inp wk cur p).alpha * x (m.Jup p) + (m.pLin inp wk cur p).beta * x (m.Jdp p) + (m.pLin inp wk cur p).chi = _
      rw [b.src]; rfl
    · intro k hk ne
      have := b.pumps k (Finset.mem_range.mp hk) ne
      change (if m.Jdp k = i then _ else _) - (if m.Jup k = i then _ else _) = _
      rw [if_neg this.1, if_neg this.2, sub_zero]
  rw [xi, l, o, we, pu, add_zero] at h
  change geo.As i / inp.dt * (x i - prev.H i) = _ at h
  linarith

/-- Discharge added per metre the level of the sump rises during the step. -/
def addedFlow (p : Pump) (u H Hd : ℝ) : ℝ :=
  have : Decidable (p.dHmin < Hd - H ∧ Hd - H < p.dHmax) := Classical.dec _
  if p.dHmin < Hd - H ∧ Hd - H < p.dHmax then pumpFlow H Hd u p / (p.a - (Hd - H)) else 0

theorem gammaP_eq {p : Pump} (v : p.Valid) {u H Hd : ℝ} (hu : 0 < u) (run : startLevel p < H)
    (lo : p.dHmin < Hd - H) (hi : Hd - H < p.dHmax) :
    gammaP (pumpFlow H Hd u p) u p = pumpFlow H Hd u p / (p.a - (Hd - H)) ∧ 0 < pumpFlow H Hd u p := by
  have a0 : 0 < p.a - (Hd - H) := by have := v.shutoff; linarith
  have b0 := v.b_pos
  have c0 := v.c_pos
  have e := (C26_pump v hu.le H Hd).2.1 run
  rw [min_eq_left hi.le, max_eq_right lo.le] at e
  have q0 : 0 < pumpFlow H Hd u p := by
    rw [pumpFlow, if_pos (show H > p.z_inv + p.z_p from run), pumpHead_eq v, min_eq_left hi.le, max_eq_right lo.le]
    positivity
  refine ⟨?_, q0⟩
  rw [gammaP, safeDivide_eq, abs_of_pos q0, Real.rpow_sub_one q0.ne', div_eq_div_iff (by positivity) a0.ne', ← e]
  field_simp

/-- What the step takes as the discharge of the pump. -/
theorem pumpLin_used (old : Lin) {p : Pump} (v : p.Valid) {u H Hd : ℝ} (hu : 0 < u) (y : ℝ) :
    (pumpLin old (pumpFlow H Hd u p) H Hd u p).eval y Hd
      = pumpFlow H Hd u p + (if startLevel p < H then addedFlow p u H Hd else 0) * (y - H) := by
  have e := C24_pump old H Hd u v hu.le
  have k : (pumpLin old (pumpFlow H Hd u p) H Hd u p).eval y Hd
      = (pumpLin old (pumpFlow H Hd u p) H Hd u p).eval H Hd
        + (pumpLin old (pumpFlow H Hd u p) H Hd u p).alpha * (y - H) := by unfold Lin.eval; ring
  rw [k, e]
  congr 2
  rw [C11_pump_no_stale old ⟨0, 0, 0⟩]
  by_cases c0 : H > p.z_inv + p.z_p
  · rw [if_pos (show startLevel p < H from c0)]
    by_cases c1 : Hd - H > p.dHmin ∧ Hd - H < p.dHmax
    · rw [addedFlow, if_pos ⟨c1.1, c1.2⟩, ← (gammaP_eq v hu c0 c1.1 c1.2).1]
      simp only [pumpLin, c0, c1, not_true, and_false, and_self, if_true, if_false]
    · rw [addedFlow, if_neg c1]
      simp only [pumpLin, c0, c1, not_true, not_false_iff, and_false, and_self, if_true, if_false]
  · rw [if_neg (show ¬ startLevel p < H from c0)]
    simp only [pumpLin, c0, not_false_iff, if_true]

variable {A dt q u Hd : ℝ} {st : ℕ → Hyd}

theorem addedFlow_nonneg {p : Pump} (v : p.Valid) (hu : 0 < u) (H : ℝ) : 0 ≤ addedFlow p u H Hd := by
  unfold addedFlow
  split_ifs with h
  · have := v.shutoff
    exact div_nonneg (C26_pump v hu.le H Hd).1 (by linarith [h.2])
  · exact le_rfl

theorem PumpRun.reported (R : PumpRun m i p A dt q u Hd st) (n : ℕ) :
    (st n).Qp p = pumpFlow ((st n).H i) Hd u (m.pump p) := by
  rw [← R.level n]
  cases n with
  | zero => exact R.start
  | succ n =>
    obtain ⟨geo, inp, wk, co, x, -, -, -, -, eu, -, -, es⟩ := R.step n
    rw [es, ← eu]
    change pumpFlow ((m.advance geo inp wk (st n) co x).H (m.Jup p)) _ _ _ = _
    rw [R.sump.src]
    rfl

/-- The next level. -/
theorem sump_next (R : PumpRun m i p A dt q u Hd st) (n : ℕ) :
    ∃ y, (st (n + 1)).H i = min (max y (m.z_inv i)) (m.z_inv i + m.max_depth i) ∧
      (1 + dt / A * (if startLevel (m.pump p) < (st n).H i then addedFlow (m.pump p) u ((st n).H i) Hd else 0))
        * (y - (st n).H i) = dt / A * (q - pumpFlow ((st n).H i) Hd u (m.pump p)) := by
  have A0 := R.A_pos
  have d0 := R.dt_pos
  obtain ⟨geo, inp, wk, co, x, cw, eA, edt, eq, eu, eh, pa, es⟩ := R.step n
  have b := sump_balance R.sump R.consistent cw pa
  have hx : x (m.Jdp p) = Hd := by
    rw [← eh]
    exact (((solves_iff (m.net geo inp wk (st n) co) inp.dt wk.mats cw.mats (wired R.consistent) (st n).H inp.Q_in
      (inp.H_bc.getD (st n).H) x).mp pa.solve) (m.Jdp p) (R.consistent.Jdp p R.sump.pump)).1 R.held
  rw [eA, edt, eq, hx] at b
  refine ⟨x i, by rw [es]; rfl, ?_⟩
  unfold Model.pLin at b
  rw [R.sump.src, eu, R.level n, R.reported n, pumpLin_used _ R.valid R.u_pos] at b
  generalize (if startLevel (m.pump p) < (st n).H i then addedFlow (m.pump p) u ((st n).H i) Hd else 0) = ρ at *
  field_simp at b ⊢
  linarith

/-- The pump passes nothing below its starting level, ... -/
theorem pump_off {p : Pump} {H : ℝ} (h : H ≤ startLevel p) : pumpFlow H Hd u p = 0 :=
  if_neg (not_lt.mpr h)

/-- ... and at least its least discharge above. -/
theorem pump_on {p : Pump} (v : p.Valid) (hu : 0 ≤ u) {H : ℝ} (h : startLevel p < H) :
    leastFlow p u Hd ≤ pumpFlow H Hd u p ∧ pumpFlow H Hd u p ≤ mostFlow p u := by
  rw [pumpFlow_running v h]
  exact ⟨pumpCurve_anti v hu (max_le_max_left _ (min_le_min_right _ (by unfold startLevel at h; linarith))) (liftAt_le v _),
    pumpCurve_anti v hu (le_max_left _ _) (liftAt_le v _)⟩

/-- Below the starting level the inflow is stored, ... -/
theorem sump_off (R : PumpRun m i p A dt q u Hd st) {n : ℕ} (h : (st n).H i ≤ startLevel (m.pump p)) :
    (st (n + 1)).H i = min (max ((st n).H i + dt * q / A) (m.z_inv i)) (m.z_inv i + m.max_depth i) := by
  obtain ⟨y, ey, e⟩ := sump_next R n
  rw [if_neg (not_lt.mpr h), pump_off h, mul_zero, add_zero, one_mul, sub_zero] at e
  rw [ey, show y = (st n).H i + dt * q / A by linarith [show dt / A * q = dt * q / A by ring]]

/-- ... above it, the level moves in the direction of the surplus, by no more than the surplus over the surface. -/
theorem sump_on (R : PumpRun m i p A dt q u Hd st) {n : ℕ} (h : startLevel (m.pump p) < (st n).H i) :
    ∃ y, (st (n + 1)).H i = min (max y (m.z_inv i)) (m.z_inv i + m.max_depth i) ∧
      (1 + dt / A * addedFlow (m.pump p) u ((st n).H i) Hd) * (y - (st n).H i)
        = dt / A * (q - pumpFlow ((st n).H i) Hd u (m.pump p)) := by
  obtain ⟨y, ey, e⟩ := sump_next R n
  rw [if_pos h] at e
  exact ⟨y, ey, e⟩

/-! ### C192: inflows the pump can master -/

/-- **C192 (ceiling).** If the pump discharges at its starting level what flows in, the sump never rises higher above that level
than one step's inflow lifts it, unless it was higher at first. -/
theorem C192_ceiling (R : PumpRun m i p A dt q u Hd st) (master : q ≤ leastFlow (m.pump p) u Hd) (n : ℕ) :
    (st n).H i ≤ max ((st 0).H i) (startLevel (m.pump p) + dt * q / A) := by
  have A0 := R.A_pos
  have d0 := R.dt_pos
  have q0 := R.q_nonneg
  have ab := R.above
  have t0 : 0 ≤ dt * q / A := by positivity
  generalize hK : max ((st 0).H i) (startLevel (m.pump p) + dt * q / A) = K
  have K2 : startLevel (m.pump p) + dt * q / A ≤ K := by rw [← hK]; exact le_max_right _ _
  induction n with
  | zero => rw [← hK]; exact le_max_left _ _
  | succ n ih =>
    rcases le_or_gt ((st n).H i) (startLevel (m.pump p)) with h | h
    · rw [sump_off R h]
      exact (min_le_left _ _).trans (max_le (by linarith) (by linarith))
    · obtain ⟨y, ey, e⟩ := sump_on R h
      rw [ey]
      refine (min_le_left _ _).trans (max_le ?_ (by linarith))
      have f := (pump_on (Hd := Hd) R.valid R.u_pos.le h).1
      have r := addedFlow_nonneg (Hd := Hd) R.valid R.u_pos ((st n).H i)
      have D : 0 < 1 + dt / A * addedFlow (m.pump p) u ((st n).H i) Hd := by positivity
      have : y - (st n).H i ≤ 0 := by
        by_contra hn
        have a1 := mul_pos D (not_le.mp hn)
        have a2 : dt / A * (q - pumpFlow ((st n).H i) Hd u (m.pump p)) ≤ 0 :=
          mul_nonpos_of_nonneg_of_nonpos (by positivity) (by linarith)
        linarith
      linarith

/-- **C192 (floor).** The sump never falls lower below the starting level than the pump at its greatest discharge draws it down in
one step, unless it was lower at first. -/
theorem C192_floor (R : PumpRun m i p A dt q u Hd st) (top : (st 0).H i ≤ m.z_inv i + m.max_depth i) (n : ℕ) :
    min ((st 0).H i) (startLevel (m.pump p) - dt / A * max 0 (mostFlow (m.pump p) u - q)) ≤ (st n).H i := by
  have A0 := R.A_pos
  have d0 := R.dt_pos
  have q0 := R.q_nonneg
  have t0 : 0 ≤ dt * q / A := by positivity
  generalize hK : min ((st 0).H i) (startLevel (m.pump p) - dt / A * max 0 (mostFlow (m.pump p) u - q)) = K
  have K1 : K ≤ (st 0).H i := by rw [← hK]; exact min_le_left _ _
  have K2 : K ≤ startLevel (m.pump p) - dt / A * max 0 (mostFlow (m.pump p) u - q) := by rw [← hK]; exact min_le_right _ _
  induction n with
  | zero => exact K1
  | succ n ih =>
    rcases le_or_gt ((st n).H i) (startLevel (m.pump p)) with h | h
    · rw [sump_off R h]
      exact le_min ((by linarith : K ≤ (st n).H i + dt * q / A).trans (le_max_left _ _)) (K1.trans top)
    · obtain ⟨y, ey, e⟩ := sump_on R h
      rw [ey]
      refine le_min (le_trans ?_ (le_max_left _ _)) (K1.trans top)
      have f := (pump_on (Hd := Hd) R.valid R.u_pos.le h).2
      have r := addedFlow_nonneg (Hd := Hd) R.valid R.u_pos ((st n).H i)
      have D : 1 ≤ 1 + dt / A * addedFlow (m.pump p) u ((st n).H i) Hd := by
        have : 0 ≤ dt / A * addedFlow (m.pump p) u ((st n).H i) Hd := by positivity
        linarith
      have g : dt / A * (-max 0 (mostFlow (m.pump p) u - q)) ≤ dt / A * (q - pumpFlow ((st n).H i) Hd u (m.pump p)) :=
        mul_le_mul_of_nonneg_left (by linarith [le_max_right 0 (mostFlow (m.pump p) u - q)]) (by positivity)
      have g0 : 0 ≤ dt / A * max 0 (mostFlow (m.pump p) u - q) := by
        have := le_max_left 0 (mostFlow (m.pump p) u - q); positivity
      rcases le_or_gt 0 (y - (st n).H i) with s | s
      · linarith
      · have := mul_le_mul_of_nonpos_right D s.le
        linarith

/-- **C192 (it stops).** If the pump discharges more at its starting level than flows in, it stops again and again. -/
theorem C192_stops (R : PumpRun m i p A dt q u Hd st) (master : q < leastFlow (m.pump p) u Hd) (N : ℕ) :
    ∃ n, N ≤ n ∧ (st n).H i ≤ startLevel (m.pump p) ∧ (st n).Qp p = 0 := by
  have A0 := R.A_pos
  have d0 := R.dt_pos
  have q0 := R.q_nonneg
  have v := R.valid
  suffices ∃ n, N ≤ n ∧ (st n).H i ≤ startLevel (m.pump p) by
    obtain ⟨n, h1, h2⟩ := this
    exact ⟨n, h1, h2, by rw [R.reported n, pump_off h2]⟩
  by_contra hn
  push Not at hn
  -- the discharge added per metre is bounded
  set L := leastFlow (m.pump p) u Hd with hL
  set E := (m.pump p).a - liftAt (m.pump p) (startLevel (m.pump p)) Hd with hE
  have E0 : 0 < E := by
    rcases (sub_nonneg.mpr (liftAt_le (Hd := Hd) v (startLevel (m.pump p)))).eq_or_lt with h | h
    · exfalso
      have c := v.c_pos
      have : L = 0 := by
        rw [hL, leastFlow, pumpCurve]
        change (u / (m.pump p).b * ((m.pump p).a - liftAt (m.pump p) (startLevel (m.pump p)) Hd)) ^ _ = 0
        rw [← h, mul_zero, Real.zero_rpow (by positivity)]
      linarith
    · exact h
  have L0 : 0 < L := lt_of_le_of_lt q0 master
  have mostL : L ≤ mostFlow (m.pump p) u := by
    have := pump_on (Hd := Hd) v R.u_pos.le (hn N le_rfl)
    exact this.1.trans this.2
  set B := mostFlow (m.pump p) u / E with hB
  have B0 : 0 ≤ B := div_nonneg (by linarith) E0.le
  have bound : ∀ n, N ≤ n → addedFlow (m.pump p) u ((st n).H i) Hd ≤ B := by
    intro n hnn
    unfold addedFlow
    split_ifs with r
    · have lift : Hd - (st n).H i ≤ liftAt (m.pump p) (startLevel (m.pump p)) Hd := by
        have h := hn n hnn
        unfold liftAt
        exact (le_min (by linarith) r.2.le).trans (le_max_right _ _)
      exact div_le_div₀ (by linarith) (pump_on v R.u_pos.le (hn n hnn)).2 E0 (by linarith)
    · exact B0
  set δ := dt / A * (L - q) / (1 + dt / A * B) with hδ
  have δ0 : 0 < δ := by
    have : 0 < L - q := by linarith
    positivity
  have fall : ∀ k, (st (N + k)).H i ≤ max ((st N).H i - k * δ) (m.z_inv i) := by
    intro k
    induction k with
    | zero => simp
    | succ k ih =>
      have h := hn (N + k) (by omega)
      obtain ⟨y, ey, e⟩ := sump_on R h
      have r := addedFlow_nonneg (Hd := Hd) v R.u_pos ((st (N + k)).H i)
      have rb := bound (N + k) (by omega)
      have f := (pump_on (Hd := Hd) v R.u_pos.le h).1
      have D0 : 0 < 1 + dt / A * addedFlow (m.pump p) u ((st (N + k)).H i) Hd := by positivity
      have D1 : 1 + dt / A * addedFlow (m.pump p) u ((st (N + k)).H i) Hd ≤ 1 + dt / A * B := by gcongr
      have yy : y ≤ (st (N + k)).H i - δ := by
        have e2 : (1 + dt / A * B) * δ = dt / A * (L - q) := by rw [hδ]; field_simp
        have e3 : dt / A * (q - pumpFlow ((st (N + k)).H i) Hd u (m.pump p)) ≤ -(dt / A * (L - q)) := by
          rw [← mul_neg]
          exact mul_le_mul_of_nonneg_left (by linarith) (by positivity)
        have e4 := mul_le_mul_of_nonneg_right D1 δ0.le
        by_contra hy
        have := mul_lt_mul_of_pos_left (show -δ < y - (st (N + k)).H i by linarith) D0
        linarith
      rw [show N + (k + 1) = N + k + 1 from rfl, ey]
      refine (min_le_left _ _).trans (max_le ?_ (le_max_right _ _))
      rcases le_max_iff.mp ih with h' | h'
      · refine le_trans ?_ (le_max_left _ _)
        push_cast
        linarith
      · exact (by linarith : y ≤ m.z_inv i).trans (le_max_right _ _)
  obtain ⟨k, hk⟩ := exists_nat_gt (((st N).H i - startLevel (m.pump p)) / δ)
  rw [div_lt_iff₀ δ0] at hk
  have h1 := fall k
  have h2 := hn (N + k) (by omega)
  have := R.above
  rcases le_max_iff.mp h1 with h' | h' <;> linarith

/-- **C192 (it starts).** If something flows in, it starts again and again. -/
theorem C192_starts (R : PumpRun m i p A dt q u Hd st) (inflow : 0 < q) (room : startLevel (m.pump p) < m.z_inv i + m.max_depth i)
    (N : ℕ) : ∃ n, N ≤ n ∧ startLevel (m.pump p) < (st n).H i := by
  have A0 := R.A_pos
  have d0 := R.dt_pos
  by_contra hn
  push Not at hn
  have t0 : 0 < dt * q / A := by positivity
  have rise : ∀ k : ℕ, (st N).H i + k * (dt * q / A) ≤ (st (N + k)).H i := by
    intro k
    induction k with
    | zero => simp
    | succ k ih =>
      have h := hn (N + k) (by omega)
      have e := sump_off R h
      have h' := hn (N + k + 1) (by omega)
      rw [show N + (k + 1) = N + k + 1 from rfl]
      rw [e] at h' ⊢
      rcases min_le_iff.mp h' with h2 | h2
      · rw [min_eq_left (by linarith)]
        refine le_trans ?_ (le_max_left _ _)
        push_cast
        linarith
      · linarith
  obtain ⟨k, hk⟩ := exists_nat_gt ((startLevel (m.pump p) - (st N).H i) / (dt * q / A))
  rw [div_lt_iff₀ t0] at hk
  have h1 := rise k
  have h2 := hn (N + k) (by omega)
  linarith

/-! ### C192: inflows within the range of the pump -/

/-- The level `h` lies above the starting level of the pump and within its range of lifts. -/
structure InRange (p : Pump) (Hd h : ℝ) : Prop where
  started : startLevel p < h
  least : p.dHmin < Hd - h
  most : Hd - h < p.dHmax

theorem InRange.between {p : Pump} {h h' y : ℝ} (r : InRange p Hd h) (r' : InRange p Hd h') (l : h ≤ y) (l' : y ≤ h') :
    InRange p Hd y :=
  ⟨r.started.trans_le l, r'.least.trans_le (by linarith), lt_of_le_of_lt (by linarith) r.most⟩

/-- Discharge of the running pump, in terms of the lift below its shutoff head. -/
def lawAt (p : Pump) (u e : ℝ) : ℝ := (u / p.b * e) ^ (1 / p.c)

theorem InRange.flow {p : Pump} (v : p.Valid) {h : ℝ} (r : InRange p Hd h) :
    pumpFlow h Hd u p = lawAt p u (p.a - (Hd - h)) ∧ 0 < p.a - (Hd - h) := by
  refine ⟨?_, by linarith [v.shutoff, r.most]⟩
  rw [pumpFlow_running v r.started, pumpCurve, liftAt, min_eq_left r.most.le, max_eq_right r.least.le, lawAt]

theorem lawAt_strict {p : Pump} (v : p.Valid) (hu : 0 < u) {e e' : ℝ} (h0 : 0 ≤ e) (h : e < e') : lawAt p u e < lawAt p u e' := by
  have b := v.b_pos
  have c := v.c_pos
  exact Real.rpow_lt_rpow (by positivity) (mul_lt_mul_of_pos_left h (by positivity)) (by positivity)

/-- With `1 ≤ c` the discharge grows no faster than in proportion. -/
theorem lawAt_concave {p : Pump} (v : p.Valid) (hu : 0 < u) (hc : 1 ≤ p.c) {e e' : ℝ} (h0 : 0 < e) (h : e ≤ e') :
    e * lawAt p u e' ≤ e' * lawAt p u e := by
  have b := v.b_pos
  have c := v.c_pos
  have k : 0 < u / p.b := by positivity
  have e0 : 0 < e' := h0.trans_le h
  have m : (u / p.b * e') ^ (1 / p.c - 1) ≤ (u / p.b * e) ^ (1 / p.c - 1) :=
    Real.rpow_le_rpow_of_nonpos (by positivity) (mul_le_mul_of_nonneg_left h k.le) (by
      rw [sub_nonpos, div_le_one c]; exact hc)
  have s : ∀ x : ℝ, 0 < x → lawAt p u x = (u / p.b * x) ^ (1 / p.c - 1) * (u / p.b * x) := fun x hx => by
    rw [lawAt, ← Real.rpow_add_one (by positivity)]; congr 1; ring
  rw [s e h0, s e' e0]
  have := mul_le_mul_of_nonneg_left m (show 0 ≤ e * e' * (u / p.b) by positivity)
  linarith

/-- A level within range moves towards the steady one and not past it. -/
theorem range_step (R : PumpRun m i p A dt q u Hd st) (hc : 1 ≤ (m.pump p).c) {hs : ℝ} (rs : InRange (m.pump p) Hd hs)
    (carries : pumpFlow hs Hd u (m.pump p) = q) (top : hs ≤ m.z_inv i + m.max_depth i) {n : ℕ}
    (r : InRange (m.pump p) Hd ((st n).H i)) (tn : (st n).H i ≤ m.z_inv i + m.max_depth i) :
    ((m.pump p).a - (Hd - (st n).H i) + dt / A * lawAt (m.pump p) u ((m.pump p).a - (Hd - (st n).H i)))
        * ((st (n + 1)).H i - (st n).H i)
      = dt / A * ((m.pump p).a - (Hd - (st n).H i)) * (q - lawAt (m.pump p) u ((m.pump p).a - (Hd - (st n).H i))) ∧
    ((st n).H i ≤ hs → (st n).H i ≤ (st (n + 1)).H i ∧ (st (n + 1)).H i ≤ hs) ∧
    (hs ≤ (st n).H i → hs ≤ (st (n + 1)).H i ∧ (st (n + 1)).H i ≤ (st n).H i) := by
  have A0 := R.A_pos
  have d0 := R.dt_pos
  have v := R.valid
  obtain ⟨y, ey, e⟩ := sump_on R r.started
  obtain ⟨fn, en⟩ := r.flow (u := u) v
  obtain ⟨fs, es⟩ := rs.flow (u := u) v
  rw [carries] at fs
  rw [addedFlow, if_pos ⟨r.least, r.most⟩, fn] at e
  have ab := R.above
  have z0 := r.started
  have z1 := rs.started
  generalize hE : (m.pump p).a - (Hd - (st n).H i) = E at *
  generalize hS : (m.pump p).a - (Hd - hs) = S at *
  have law : (E + dt / A * lawAt (m.pump p) u E) * (y - (st n).H i) = dt / A * E * (q - lawAt (m.pump p) u E) := by
    have : E + dt / A * lawAt (m.pump p) u E = E * (1 + dt / A * (lawAt (m.pump p) u E / E)) := by field_simp
    rw [this, mul_assoc, e]; ring
  have F0 : 0 < lawAt (m.pump p) u E := by
    have := v.b_pos
    have := R.u_pos
    unfold lawAt; positivity
  have t0 : 0 < dt / A := by positivity
  have D : 0 < E + dt / A * lawAt (m.pump p) u E := by positivity
  -- the new level, measured from the steady one
  have past : (E + dt / A * lawAt (m.pump p) u E) * (y - hs)
      = E * ((st n).H i - hs) + dt / A * (E * q - S * lawAt (m.pump p) u E) := by
    have : (st n).H i - hs = E - S := by linarith
    have k : y - hs = (y - (st n).H i) + (E - S) := by linarith
    rw [k, mul_add, law, this]; ring
  have up : (st n).H i ≤ hs → (st n).H i ≤ y ∧ y ≤ hs := by
    intro l
    have ES : E ≤ S := by linarith
    have m1 : lawAt (m.pump p) u E ≤ q := by
      rw [fs]
      rcases ES.eq_or_lt with h | h
      · rw [h]
      · exact (lawAt_strict v R.u_pos en.le h).le
    have m2 := lawAt_concave v R.u_pos hc en ES
    rw [← fs] at m2
    constructor
    · by_contra hy
      have a1 := mul_neg_of_pos_of_neg D (show y - (st n).H i < 0 by linarith)
      have a2 : 0 ≤ dt / A * E * (q - lawAt (m.pump p) u E) := mul_nonneg (by positivity) (by linarith)
      linarith
    · by_contra hy
      have a1 := mul_pos D (show 0 < y - hs by linarith)
      have a2 : E * ((st n).H i - hs) ≤ 0 := mul_nonpos_of_nonneg_of_nonpos en.le (by linarith)
      have a3 : dt / A * (E * q - S * lawAt (m.pump p) u E) ≤ 0 := mul_nonpos_of_nonneg_of_nonpos t0.le (by linarith)
      linarith
  have down : hs ≤ (st n).H i → hs ≤ y ∧ y ≤ (st n).H i := by
    intro l
    have ES : S ≤ E := by linarith
    have m1 : q ≤ lawAt (m.pump p) u E := by
      rw [fs]
      rcases ES.eq_or_lt with h | h
      · rw [h]
      · exact (lawAt_strict v R.u_pos es.le h).le
    have m2 := lawAt_concave v R.u_pos hc es ES
    rw [← fs] at m2
    constructor
    · by_contra hy
      have a1 := mul_neg_of_pos_of_neg D (show y - hs < 0 by linarith)
      have a2 : 0 ≤ E * ((st n).H i - hs) := mul_nonneg en.le (by linarith)
      have a3 : 0 ≤ dt / A * (E * q - S * lawAt (m.pump p) u E) := mul_nonneg t0.le (by linarith)
      linarith
    · by_contra hy
      have a1 := mul_pos D (show 0 < y - (st n).H i by linarith)
      have a2 : dt / A * E * (q - lawAt (m.pump p) u E) ≤ 0 := mul_nonpos_of_nonneg_of_nonpos (by positivity) (by linarith)
      linarith
  have yy : (st (n + 1)).H i = y := by
    rw [ey]
    rcases le_total ((st n).H i) hs with l | l
    · rw [max_eq_left (by linarith [up l]), min_eq_left (by linarith [up l])]
    · rw [max_eq_left (by linarith [down l]), min_eq_left (by linarith [down l])]
  rw [yy]
  exact ⟨law, up, down⟩

/-- **C192 (settling).** If the pump's curve is not steeper than a straight line and the level at which it carries the inflow is
within its range, the sump approaches that level from one side and settles, whatever the step, from every level within range. -/
theorem C192_settles (R : PumpRun m i p A dt q u Hd st) (hc : 1 ≤ (m.pump p).c) {hs : ℝ} (rs : InRange (m.pump p) Hd hs)
    (carries : pumpFlow hs Hd u (m.pump p) = q) (top : hs ≤ m.z_inv i + m.max_depth i)
    (r : InRange (m.pump p) Hd ((st 0).H i)) (t0 : (st 0).H i ≤ m.z_inv i + m.max_depth i) :
    Tendsto (fun n => (st n).H i) atTop (𝓝 hs) ∧
      ((st 0).H i ≤ hs → Monotone (fun n => (st n).H i) ∧ ∀ n, (st n).H i ≤ hs) ∧
      (hs ≤ (st 0).H i → Antitone (fun n => (st n).H i) ∧ ∀ n, hs ≤ (st n).H i) := by
  have A0 := R.A_pos
  have d0 := R.dt_pos
  have v := R.valid
  -- between the first level and the steady one throughout
  have lowSide : (st 0).H i ≤ hs → ∀ n, (st 0).H i ≤ (st n).H i ∧ (st n).H i ≤ hs ∧ (st n).H i ≤ (st (n + 1)).H i := by
    intro l n
    induction n with
    | zero =>
      obtain ⟨-, h, -⟩ := range_step R hc rs carries top r t0
      exact ⟨le_rfl, l, (h l).1⟩
    | succ n ih =>
      obtain ⟨a1, a2, -⟩ := ih
      obtain ⟨-, h, -⟩ := range_step R hc rs carries top (r.between rs a1 a2) (a2.trans top)
      have b := h a2
      obtain ⟨-, h', -⟩ := range_step R hc rs carries top (r.between rs (a1.trans b.1) b.2) (b.2.trans top)
      exact ⟨a1.trans b.1, b.2, (h' b.2).1⟩
  have highSide : hs ≤ (st 0).H i → ∀ n, (st n).H i ≤ (st 0).H i ∧ hs ≤ (st n).H i ∧ (st (n + 1)).H i ≤ (st n).H i := by
    intro l n
    induction n with
    | zero =>
      obtain ⟨-, -, h⟩ := range_step R hc rs carries top r t0
      exact ⟨le_rfl, l, (h l).2⟩
    | succ n ih =>
      obtain ⟨a1, a2, -⟩ := ih
      obtain ⟨-, -, h⟩ := range_step R hc rs carries top (rs.between r a2 a1) (a1.trans t0)
      have b := h a2
      obtain ⟨-, -, h'⟩ := range_step R hc rs carries top (rs.between r b.1 (b.2.trans a1)) ((b.2.trans a1).trans t0)
      exact ⟨b.2.trans a1, b.1, (h' b.1).2⟩
  have range : ∀ n, InRange (m.pump p) Hd ((st n).H i) ∧ (st n).H i ≤ m.z_inv i + m.max_depth i := by
    intro n
    rcases le_total ((st 0).H i) hs with l | l
    · have := lowSide l n
      exact ⟨r.between rs this.1 this.2.1, this.2.1.trans top⟩
    · have := highSide l n
      exact ⟨rs.between r this.2.1 this.1, this.1.trans t0⟩
  have mono : (st 0).H i ≤ hs → Monotone (fun n => (st n).H i) := fun l => monotone_nat_of_le_succ fun n => (lowSide l n).2.2
  have anti : hs ≤ (st 0).H i → Antitone (fun n => (st n).H i) := fun l => antitone_nat_of_succ_le fun n => (highSide l n).2.2
  refine ⟨?_, fun l => ⟨mono l, fun n => (lowSide l n).2.1⟩, fun l => ⟨anti l, fun n => (highSide l n).2.1⟩⟩
  obtain ⟨L, hL, inL⟩ : ∃ L, Tendsto (fun n => (st n).H i) atTop (𝓝 L) ∧ InRange (m.pump p) Hd L := by
    rcases le_total ((st 0).H i) hs with l | l
    · have t := tendsto_atTop_ciSup (mono l) ⟨hs, by rintro _ ⟨n, rfl⟩; exact (lowSide l n).2.1⟩
      exact ⟨_, t, r.between rs (ge_of_tendsto' t fun n => (lowSide l n).1) (le_of_tendsto' t fun n => (lowSide l n).2.1)⟩
    · have t := tendsto_atTop_ciInf (anti l) ⟨hs, by rintro _ ⟨n, rfl⟩; exact (highSide l n).2.1⟩
      exact ⟨_, t, rs.between r (ge_of_tendsto' t fun n => (highSide l n).2.1) (le_of_tendsto' t fun n => (highSide l n).1)⟩
  have cont : Continuous (lawAt (m.pump p) u) := by
    have c := v.c_pos
    unfold lawAt
    exact (Real.continuous_rpow_const (by positivity)).comp (by fun_prop)
  have hE : Tendsto (fun n => (m.pump p).a - (Hd - (st n).H i)) atTop (𝓝 ((m.pump p).a - (Hd - L))) :=
    (hL.const_sub Hd).const_sub _
  have hF := (cont.tendsto _).comp hE
  have left := (hE.add (hF.const_mul (dt / A))).mul (((tendsto_add_atTop_iff_nat 1).mpr hL).sub hL)
  have right := (hE.const_mul (dt / A)).mul (hF.const_sub q)
  have same := tendsto_nhds_unique (left.congr fun n => (range_step R hc rs carries top (range n).1 (range n).2).1) right
  rw [sub_self, mul_zero] at same
  obtain ⟨-, eL⟩ := inL.flow (u := u) v
  obtain ⟨fs, es⟩ := rs.flow (u := u) v
  have F : lawAt (m.pump p) u ((m.pump p).a - (Hd - L)) = lawAt (m.pump p) u ((m.pump p).a - (Hd - hs)) := by
    rcases mul_eq_zero.mp same.symm with h | h
    · exact absurd h (by positivity)
    · linarith
  have : L = hs := by
    rcases lt_trichotomy L hs with h | h | h
    · exact absurd F (lawAt_strict v R.u_pos eL.le (by linarith)).ne
    · exact h
    · exact absurd F (lawAt_strict v R.u_pos es.le (by linarith)).ne'
  rwa [this] at hL

/-! ### A case meeting the hypotheses -/

def sumpInp (dt q : ℝ) : Inputs := { exInp with u_p := fun _ => 1, Q_in := fun i => if i = 0 then q else 0, dt := dt }

/-- From every first level there is a run of the sump of `sumpModel`, pumped to a level of 6. -/
theorem sump_run {dt q H0 : ℝ} (hdt : 0 < dt) (hq : 0 ≤ q) (h0 : 0 ≤ H0) :
    ∃ st, PumpRun sumpModel 0 0 3 dt q 1 6 st ∧ (st 0).H 0 = H0 := by
  have c : sumpModel.Consistent := by
    refine ⟨⟨fun _ h => absurd h (Nat.not_lt_zero _), fun _ _ h => absurd h (Nat.not_lt_zero _),
      fun _ _ h => absurd h (Nat.not_lt_zero _)⟩, fun _ h => absurd h (Nat.not_lt_zero _), fun _ h => absurd h (Nat.not_lt_zero _),
      ?_, ?_, ?_, ?_, ?_, ?_, ?_, ?_⟩ <;> simp [sumpModel, exModel]
  have ps : PhysicalStep sumpModel exGeo (sumpInp dt q) := by
    constructor <;> intros <;> norm_num [sumpModel, sumpInp, exModel, exGeo, exInp, hdt]
  have cw : CleanWork sumpModel exWork.mats :=
    ⟨⟨fun _ _ _ _ => rfl⟩, ⟨fun _ _ _ _ => rfl, fun _ _ => rfl⟩, ⟨fun _ _ _ _ => rfl, fun _ _ => rfl⟩,
      ⟨fun _ _ _ _ => rfl, fun _ _ => rfl⟩⟩
  have ex : ∀ s : Hyd, ∃ co x, Pass sumpModel exGeo (sumpInp dt q) exWork s s co x := fun s =>
    C06_step_exists c ps cw fun _ h => absurd h (Nat.not_lt_zero _)
  choose co x pa using ex
  set st : ℕ → Hyd := fun n => Nat.rec
    { exStill with H := fun i => if i = 0 then H0 else 6, Qp := fun _ => pumpFlow H0 6 1 (sumpModel.pump 0) }
    (fun _ s => sumpModel.advance exGeo (sumpInp dt q) exWork s (co s) (x s)) n with hst
  have high : ∀ n, (st n).H 1 = 6 := by
    intro n
    induction n with
    | zero => simp [hst]
    | succ n ih =>
      have e := (((solves_iff (sumpModel.net exGeo (sumpInp dt q) exWork (st n) (co (st n))) dt exWork.mats cw.mats (wired c)
        (st n).H (sumpInp dt q).Q_in ((sumpInp dt q).H_bc.getD (st n).H) (x (st n))).mp (pa (st n)).solve) 1
        (by simp [Model.net, sumpModel, exModel])).1 rfl
      have e : x (st n) 1 = 6 := e.trans ih
      change min (max (x (st n) 1) 0) (0 + 10) = 6
      rw [e]; norm_num
  exact ⟨st, ⟨sump_ok, c, sump_valid, by norm_num, hdt, one_pos, hq, h0, by norm_num [startLevel, sumpModel, exModel], rfl, rfl, high,
    fun n => ⟨exGeo, sumpInp dt q, exWork, co (st n), x (st n), cw, rfl, rfl, rfl, rfl, high n, pa (st n), rfl⟩⟩, rfl⟩

/-- With an inflow of 3 and a step of 2, the level stays between 1 - 14/3 and 3 and the pump starts and stops for ever, ... -/
example : ∃ st, PumpRun sumpModel 0 0 3 2 3 1 6 st ∧ (st 0).H 0 = 0 ∧ (∀ n, (st n).H 0 ≤ 3) ∧
    ∀ N, (∃ n, N ≤ n ∧ 1 < (st n).H 0) ∧ ∃ n, N ≤ n ∧ (st n).Qp 0 = 0 := by
  obtain ⟨st, R, e⟩ := sump_run (dt := 2) (q := 3) (H0 := 0) (by norm_num) (by norm_num) le_rfl
  have l : (3 : ℝ) < leastFlow (sumpModel.pump 0) 1 6 := by norm_num [leastFlow, pumpCurve, liftAt, sumpModel]
  have s1 : startLevel (sumpModel.pump 0) = 1 := by norm_num [startLevel, sumpModel]
  refine ⟨st, R, e, fun n => ?_, fun N => ⟨?_, ?_⟩⟩
  · have := C192_ceiling R l.le n
    rw [e, s1] at this
    norm_num at this
    exact this
  · have := C192_starts R (by norm_num) (by rw [s1]; norm_num [sumpModel, exModel]) N
    rwa [s1] at this
  · obtain ⟨n, h1, -, h3⟩ := C192_stops R l N
    exact ⟨n, h1, h3⟩

/-- ... and with an inflow of 7 and steps of 100, the level rises from 2 to 3. -/
example : ∃ st, PumpRun sumpModel 0 0 3 100 7 1 6 st ∧ (st 0).H 0 = 2 ∧ Monotone (fun n => (st n).H 0) ∧
    Tendsto (fun n => (st n).H 0) atTop (𝓝 3) := by
  obtain ⟨st, R, e⟩ := sump_run (dt := 100) (q := 7) (H0 := 2) (by norm_num) (by norm_num) (by norm_num)
  have rs : InRange (sumpModel.pump 0) 6 3 := by constructor <;> norm_num [startLevel, sumpModel]
  have r : InRange (sumpModel.pump 0) 6 ((st 0).H 0) := by rw [e]; constructor <;> norm_num [startLevel, sumpModel]
  have f : pumpFlow 3 6 1 (sumpModel.pump 0) = 7 := by
    rw [pumpFlow_running sump_valid (by norm_num [sumpModel])]
    norm_num [pumpCurve, liftAt, sumpModel]
  obtain ⟨h1, h2, -⟩ := C192_settles R (by norm_num [sumpModel]) rs f (by norm_num [sumpModel, exModel]) r
    (by rw [e]; norm_num [sumpModel, exModel])
  exact ⟨st, R, e, (h2 (by rw [e]; norm_num)).1, h1⟩

end

end Pipedream.Step
