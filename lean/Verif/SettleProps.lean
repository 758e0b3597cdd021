import Verif.SettleMapLemmas
import Verif.PumpRangeProps

/-!
# C189: a basin with an overflow settles at its steady level
-/

namespace Pipedream.Step

open Pipedream.Sweep Pipedream.Link Pipedream.Superlink Pipedream.Control Pipedream.Network Settle Filter Topology

variable {m : Model} {geo : Geo} {inp : Inputs} {wk : Work} {prev cur : Hyd} {co : Coef ℝ} {x : ℕ → ℝ} {i w : ℕ}

noncomputable section

/-! ### Specification -/

/-- Superjunction `i` drains over weir `w` and is joined to nothing else. -/
structure Basin (m : Model) (i w : ℕ) : Prop where
  lt : i < m.M
  free : m.bc i = false
  weir : w < m.n_w
  src : m.Juw w = i
  dst : m.Jdw w ≠ i
  links : ∀ k, k < m.ix.NK → m.Ju k ≠ i ∧ m.Jd k ≠ i
  orifices : ∀ o, o < m.n_o → m.Juo o ≠ i ∧ m.Jdo o ≠ i
  weirs : ∀ w', w' < m.n_w → w' ≠ w → m.Juw w' ≠ i ∧ m.Jdw w' ≠ i
  pumps : ∀ p, p < m.n_p → m.Jup p ≠ i ∧ m.Jdp p ≠ i

/-- A run of steps of size `dt` in which basin `i` has the surface `A`, receives `q` and overflows freely over weir `w` at
setting `u`. What happens elsewhere in the network is not restricted. -/
structure OverflowRun (m : Model) (i w : ℕ) (A dt q u : ℝ) (st : ℕ → Hyd) : Prop where
  basin : Basin m i w
  consistent : m.Consistent
  A_pos : 0 < A
  dt_pos : 0 < dt
  floor : m.z_inv i ≤ (st 0).H i
  crest : m.z_inv i ≤ (m.weir w).crest u
  proper : 0 ≤ (m.weir w).Cwr * (m.weir w).L ∧ 0 ≤ (m.weir w).Cwt * (m.weir w).s
  start : (st 0).Qw w = weirFlow ((st 0).H i) ((st 0).H (m.Jdw w)) u (m.weir w)
  free : ∀ n, (st n).H (m.Jdw w) ≤ (m.weir w).crest u
  step : ∀ n, ∃ (geo : Geo) (inp : Inputs) (wk : Work) (co : Coef ℝ) (x : ℕ → ℝ), CleanWork m wk.mats ∧ geo.As i = A ∧
    inp.dt = dt ∧ inp.Q_in i = q ∧ inp.u_w w = u ∧ Pass m geo inp wk (st n) (st n) co x ∧
    st (n + 1) = m.advance geo inp wk (st n) co x

/-! ### One step -/

theorem weirLin_below {old : Lin} {Q Hu Hd u : ℝ} {w : Weir} (hu : Hu ≤ w.crest u) (hd : Hd ≤ w.crest u) (a b : ℝ) :
    (weirLin old Q Hu Hd u w).eval a b = 0 := by
  have c0 : ¬ (omega Hu Hd * Hu + (1 - omega Hu Hd) * Hd > w.z_w + w.z_inv + (1 - u) * w.y_max) := by
    unfold Weir.crest at hu hd
    unfold omega; split_ifs <;> linarith
  simp only [weirLin, c0, not_false_iff, if_true, Lin.eval]
  ring

theorem weirLin_free {old : Lin} {Q Hu Hd u : ℝ} {w : Weir} (hu : w.crest u < Hu) (hd : Hd ≤ w.crest u) (a b : ℝ) :
    (weirLin old Q Hu Hd u w).eval a b = safeDivide (weirConv w (Hu - w.crest u)) |Q| * (a - w.crest u) := by
  have ge : Hu ≥ Hd := by linarith
  have o1 : omega Hu Hd = 1 := if_pos ge
  have s1 : sgn Hu Hd = 1 := if_pos ge
  have c0 : omega Hu Hd * Hu + (1 - omega Hu Hd) * Hd > w.z_w + w.z_inv + (1 - u) * w.y_max := by
    rw [o1]; unfold Weir.crest at hu; linarith
  have c1 : ¬ ((1 - omega Hu Hd) * Hu + omega Hu Hd * Hd > w.z_w + w.z_inv + (1 - u) * w.y_max) := by
    rw [o1]; unfold Weir.crest at hd; linarith
  have hh : weirHead Hu Hd u w = Hu - w.crest u := by
    simp only [weirHead, c0, c1, and_false, if_false, if_true]
    rw [o1, show (1 : ℝ) * Hu + (1 - 1) * Hd + (-w.z_inv - w.z_w - (1 - u) * w.y_max) = Hu - w.crest u by
      unfold Weir.crest; ring]
    exact abs_of_pos (by linarith)
  simp only [weirLin, c0, c1, not_true, not_false_iff, and_true, and_false, if_true, if_false, gammaW, hh, Lin.eval]
  rw [o1, s1]
  unfold Weir.crest
  ring

/-- The solver's head of the basin. -/
theorem basin_balance (b : Basin m i w) (c : m.Consistent) (cw : CleanWork m wk.mats) (p : Pass m geo inp wk prev cur co x) :
    geo.As i / inp.dt * (x i - prev.H i)
      = inp.Q_in i - (m.wLin inp wk cur w).eval (x i) (x (m.Jdw w)) := by
  have h := ((solves_iff (m.net geo inp wk cur co) inp.dt wk.mats cw.mats (wired c) prev.H inp.Q_in
    (inp.H_bc.getD cur.H) x).mp p.solve i b.lt).2 b.free
  unfold Network.Balanced at h
  have xi : (m.net geo inp wk cur co).links.xiSum i = 0 := by
    refine Finset.sum_eq_zero fun k hk => ?_
    have := b.links k (Finset.mem_range.mp hk)
    change (if m.Ju k = i then _ else _) + (if m.Jd k = i then _ else _) = _
    rw [if_neg this.1, if_neg this.2, add_zero]
  have l : (m.net geo inp wk cur co).links.inflow x i = 0 := by
    refine Finset.sum_eq_zero fun k hk => ?_
    have := b.links k (Finset.mem_range.mp hk)
    change (if m.Jd k = i then _ else _) - (if m.Ju k = i then _ else _) = _
    rw [if_neg this.1, if_neg this.2, sub_zero]
  have o : (m.net geo inp wk cur co).orifices.inflow x i = 0 := by
    refine Finset.sum_eq_zero fun k hk => ?_
    have := b.orifices k (Finset.mem_range.mp hk)
    change (if m.Jdo k = i then _ else _) - (if m.Juo k = i then _ else _) = _
    rw [if_neg this.1, if_neg this.2, sub_zero]
  have pu : (m.net geo inp wk cur co).pumps.inflow x i = 0 := by
    refine Finset.sum_eq_zero fun k hk => ?_
    have := b.pumps k (Finset.mem_range.mp hk)
    change (if m.Jdp k = i then _ else _) - (if m.Jup k = i then _ else _) = _
    rw [if_neg this.1, if_neg this.2, sub_zero]
  have we : (m.net geo inp wk cur co).weirs.inflow x i = -(m.wLin inp wk cur w).eval (x i) (x (m.Jdw w)) := by
    refine (Finset.sum_eq_single_of_mem w (Finset.mem_range.mpr b.weir) ?_).trans ?_
    rotate_left
    · change (if m.Jdw w = i then _ else _) - (if m.Juw w = i then _ else _) = _
      rw [if_neg b.dst, if_pos b.src, zero_sub]
      congr 1
      change (m.wLin inp wk cur w).alpha * x (m.Juw w) + (m.wLin inp wk cur w).beta * x (m.Jdw w) + (m.wLin inp wk cur w).chi = _
      rw [b.src]; rfl
    · intro k hk ne
      have := b.weirs k (Finset.mem_range.mp hk) ne
      change (if m.Jdw k = i then _ else _) - (if m.Juw k = i then _ else _) = _
      rw [if_neg this.1, if_neg this.2, sub_zero]
  rw [xi, l, o, pu, we, add_zero] at h
  change geo.As i / inp.dt * (x i - prev.H i) = _ at h
  linarith

/-- Discharge of the overflow per metre above its crest. -/
def perDepth (w : Weir) (h : ℝ) : ℝ := (w.Cwr * w.L + w.Cwt * w.s * h) * Real.sqrt h

theorem law_perDepth {w : Weir} (h1 : 0 ≤ w.Cwr * w.L) (h2 : 0 ≤ w.Cwt * w.s) {h : ℝ} (hh : 0 ≤ h) :
    weirLaw w h = perDepth w h * h := by
  rw [weirLaw_pos hh h1 h2, perDepth]; ring

theorem slope_perDepth {w : Weir} (h1 : 0 ≤ w.Cwr * w.L) (h2 : 0 ≤ w.Cwt * w.s) {h : ℝ} (hh : 0 < h) :
    safeDivide (weirConv w h) |weirLaw w h| = perDepth w h := by
  have c' : 0 ≤ w.Cwr * w.L + w.Cwt * w.s * h := by positivity
  have s0 : 0 < Real.sqrt h := Real.sqrt_pos.mpr hh
  rw [abs_of_nonneg (weirLaw_nonneg hh.le), law_perDepth h1 h2 hh.le, weirConv, safeDivide_eq, perDepth]
  rw [show w.Cwr * w.L * h + w.Cwt * w.s * h ^ 2 = (w.Cwr * w.L + w.Cwt * w.s * h) * h by ring]
  generalize w.Cwr * w.L + w.Cwt * w.s * h = c at *
  rcases c'.eq_or_lt with e | c0
  · rw [← e]; simp
  · have ss : Real.sqrt h * Real.sqrt h = h := Real.mul_self_sqrt hh.le
    rw [div_eq_iff (by positivity)]
    linear_combination (- c ^ 2 * h) * ss

theorem perDepth_mono {w : Weir} (h1 : 0 ≤ w.Cwr * w.L) (h2 : 0 ≤ w.Cwt * w.s) {h h' : ℝ} (h0 : 0 ≤ h) (hh : h ≤ h') :
    0 ≤ perDepth w h ∧ perDepth w h ≤ perDepth w h' := by
  unfold perDepth
  have := h0.trans hh
  exact ⟨by positivity, by gcongr⟩

variable {A dt q u : ℝ} {st : ℕ → Hyd}

theorem free_flow (R : OverflowRun m i w A dt q u st) (n : ℕ) (h : (m.weir w).crest u < (st n).H i) :
    (st n).Qw w = weirLaw (m.weir w) ((st n).H i - (m.weir w).crest u) := by
  have e : (st n).Qw w = weirFlow ((st n).H i) ((st n).H (m.Jdw w)) u (m.weir w) := by
    cases n with
    | zero => exact R.start
    | succ n =>
      obtain ⟨geo, inp, wk, co, x, -, -, -, -, eu, -, es⟩ := R.step n
      rw [es, ← eu]
      change weirFlow ((m.advance geo inp wk (st n) co x).H (m.Juw w)) _ _ _ = _
      rw [R.basin.src]
      rfl
  rw [e, weirFlow_law, max_eq_left h.le, max_eq_right (R.free n)]

/-- The next head of the basin. -/
theorem basin_next (R : OverflowRun m i w A dt q u st) (n : ℕ) :
    ∃ y, (st (n + 1)).H i = min (max y (m.z_inv i)) (m.z_inv i + m.max_depth i) ∧
      ((st n).H i ≤ (m.weir w).crest u → y = (st n).H i + dt / A * q) ∧
      ((m.weir w).crest u < (st n).H i → y = (m.weir w).crest u + ((st n).H i - (m.weir w).crest u + dt / A * q) /
        (1 + dt / A * perDepth (m.weir w) ((st n).H i - (m.weir w).crest u))) := by
  have A0 := R.A_pos
  have d0 := R.dt_pos
  obtain ⟨geo, inp, wk, co, x, cw, eA, edt, eq, eu, pa, es⟩ := R.step n
  have b := basin_balance R.basin R.consistent cw pa
  rw [eA, edt, eq] at b
  refine ⟨x i, by rw [es]; rfl, fun h => ?_, fun h => ?_⟩
  · have z : (m.wLin inp wk (st n) w).eval (x i) (x (m.Jdw w)) = 0 := by
      unfold Model.wLin
      exact weirLin_below (by rw [R.basin.src, eu]; exact h) (by rw [eu]; exact R.free n) _ _
    rw [z] at b
    field_simp at b ⊢
    linarith
  · have z : (m.wLin inp wk (st n) w).eval (x i) (x (m.Jdw w))
        = perDepth (m.weir w) ((st n).H i - (m.weir w).crest u) * (x i - (m.weir w).crest u) := by
      unfold Model.wLin
      rw [weirLin_free (by rw [R.basin.src, eu]; exact h) (by rw [eu]; exact R.free n), R.basin.src, eu, free_flow R n h,
        slope_perDepth R.proper.1 R.proper.2 (by linarith)]
    rw [z] at b
    have p0 := (perDepth_mono R.proper.1 R.proper.2 (show 0 ≤ (st n).H i - (m.weir w).crest u by linarith) le_rfl).1
    generalize perDepth (m.weir w) ((st n).H i - (m.weir w).crest u) = ρ at *
    have D : 0 < 1 + dt / A * ρ := by positivity
    rw [← sub_eq_iff_eq_add', eq_div_iff D.ne']
    field_simp at b ⊢
    linarith

/-! ### Runs -/

/-- The level above the crest at which the overflow carries the inflow, and that the basin is deep enough for the run. -/
structure Carries (m : Model) (i w : ℕ) (A dt q u : ℝ) (st : ℕ → Hyd) (hs : ℝ) : Prop where
  pos : 0 < hs
  carries : weirFlow ((m.weir w).crest u + hs) ((m.weir w).crest u) u (m.weir w) = q
  inflow : 0 < q
  room : max ((st 0).H i) ((m.weir w).crest u + hs + dt / A * q) ≤ m.z_inv i + m.max_depth i

variable {hs : ℝ}

theorem Carries.eq (C : Carries m i w A dt q u st hs) (R : OverflowRun m i w A dt q u st) :
    perDepth (m.weir w) hs * hs = q := by
  have := C.carries
  rw [weirFlow_law, max_eq_left (by linarith [C.pos]), max_self, add_sub_cancel_left,
    law_perDepth R.proper.1 R.proper.2 C.pos.le] at this
  exact this

theorem Carries.per (C : Carries m i w A dt q u st hs) (R : OverflowRun m i w A dt q u st) : 0 < perDepth (m.weir w) hs := by
  have := C.eq R
  have := C.inflow
  have := C.pos
  by_contra h
  nlinarith [not_lt.mp h]

/-- The limits on the head are never reached. -/
theorem within (R : OverflowRun m i w A dt q u st) (C : Carries m i w A dt q u st hs) (n : ℕ) :
    (m.z_inv i ≤ (st n).H i ∧ (st n).H i ≤ max ((st 0).H i) ((m.weir w).crest u + hs + dt / A * q)) ∧
      ((st n).H i ≤ (m.weir w).crest u → (st (n + 1)).H i = (st n).H i + dt / A * q) ∧
      ((m.weir w).crest u < (st n).H i → (st (n + 1)).H i = (m.weir w).crest u + ((st n).H i - (m.weir w).crest u + dt / A * q) /
        (1 + dt / A * perDepth (m.weir w) ((st n).H i - (m.weir w).crest u))) := by
  have A0 := R.A_pos
  have d0 := R.dt_pos
  have q0 := C.inflow
  have t0 : 0 < dt / A * q := by positivity
  have hcr := R.crest
  have h0 := C.pos
  have rm := C.room
  generalize hK : max ((st 0).H i) ((m.weir w).crest u + hs + dt / A * q) = K at *
  have K2 : (m.weir w).crest u + hs + dt / A * q ≤ K := by rw [← hK]; exact le_max_right _ _
  have one : ∀ n, m.z_inv i ≤ (st n).H i → (st n).H i ≤ K →
      ((st n).H i ≤ (m.weir w).crest u → (st (n + 1)).H i = (st n).H i + dt / A * q) ∧
      ((m.weir w).crest u < (st n).H i → (st (n + 1)).H i = (m.weir w).crest u + ((st n).H i - (m.weir w).crest u + dt / A * q) /
        (1 + dt / A * perDepth (m.weir w) ((st n).H i - (m.weir w).crest u))) ∧
      m.z_inv i ≤ (st (n + 1)).H i ∧ (st (n + 1)).H i ≤ K := by
    intro n lo hi
    obtain ⟨y, ey, e1, e2⟩ := basin_next R n
    rcases le_or_gt ((st n).H i) ((m.weir w).crest u) with h | h
    · have yy := e1 h
      have a1 : m.z_inv i ≤ y := by linarith
      have a2 : y ≤ K := by linarith
      rw [max_eq_left a1, min_eq_left (a2.trans rm)] at ey
      rw [ey]
      exact ⟨fun _ => yy, fun h' => absurd h (not_le.mpr h'), a1, a2⟩
    · have yy := e2 h
      have p1 := perDepth_mono R.proper.1 R.proper.2 (show 0 ≤ (st n).H i - (m.weir w).crest u by linarith) le_rfl
      have p0 := p1.1
      have cmp : hs ≤ (st n).H i - (m.weir w).crest u →
          perDepth (m.weir w) hs ≤ perDepth (m.weir w) ((st n).H i - (m.weir w).crest u) := fun h' =>
        (perDepth_mono R.proper.1 R.proper.2 h0.le h').2
      have ce := C.eq R
      generalize hg : (st n).H i - (m.weir w).crest u = g at *
      generalize perDepth (m.weir w) g = ρ at *
      have g0 : 0 < g := by linarith
      have D : 1 ≤ 1 + dt / A * ρ := by have : 0 ≤ dt / A * ρ := by positivity
                                        linarith
      have f0 : 0 < (g + dt / A * q) / (1 + dt / A * ρ) := by positivity
      have a1 : m.z_inv i ≤ y := by linarith
      have a2 : y ≤ K := by
        rcases le_or_gt hs g with h' | h'
        · have : (g + dt / A * q) / (1 + dt / A * ρ) ≤ g := by
            rw [div_le_iff₀ (by linarith)]
            have := cmp h'
            have : q ≤ ρ * g := by rw [← ce]; exact mul_le_mul this h' h0.le p0
            have := mul_le_mul_of_nonneg_left this (show 0 ≤ dt / A by positivity)
            linarith
          linarith
        · have : (g + dt / A * q) / (1 + dt / A * ρ) ≤ g + dt / A * q := div_le_self (by linarith) D
          linarith
      rw [max_eq_left a1, min_eq_left (a2.trans rm)] at ey
      rw [ey]
      exact ⟨fun h' => absurd h (not_lt.mpr h'), fun _ => yy, a1, a2⟩
  have all : ∀ n, m.z_inv i ≤ (st n).H i ∧ (st n).H i ≤ K := by
    intro n
    induction n with
    | zero => exact ⟨R.floor, by rw [← hK]; exact le_max_left _ _⟩
    | succ n ih => exact (one n ih.1 ih.2).2.2
  have := one n (all n).1 (all n).2
  exact ⟨all n, this.1, this.2.1⟩

/-- Once above the crest, always above the crest. -/
theorem stays_above (R : OverflowRun m i w A dt q u st) (C : Carries m i w A dt q u st hs) {N : ℕ}
    (h : (m.weir w).crest u < (st N).H i) : ∀ n, (m.weir w).crest u < (st (N + n)).H i := by
  intro n
  have A0 := R.A_pos
  have d0 := R.dt_pos
  have q0 := C.inflow
  induction n with
  | zero => exact h
  | succ n ih =>
    have e := (within R C (N + n)).2.2 ih
    rw [show N + (n + 1) = N + n + 1 from rfl, e]
    have p0 := (perDepth_mono R.proper.1 R.proper.2 (show 0 ≤ (st (N + n)).H i - (m.weir w).crest u by linarith) le_rfl).1
    have : 0 < ((st (N + n)).H i - (m.weir w).crest u + dt / A * q) /
        (1 + dt / A * perDepth (m.weir w) ((st (N + n)).H i - (m.weir w).crest u)) := by
      have : 0 < (st (N + n)).H i - (m.weir w).crest u := by linarith
      positivity
    linarith

/-! ### C189 -/

/-- **C189 (filling).** While the level is not above the crest, every step raises it by what flowed in divided by the surface;
after finitely many steps it is above, and it stays above. -/
theorem C189_fills (R : OverflowRun m i w A dt q u st) (C : Carries m i w A dt q u st hs) :
    (∀ n, (st n).H i ≤ (m.weir w).crest u → (st (n + 1)).H i = (st n).H i + dt * q / A) ∧
      ∃ N, ∀ n, (m.weir w).crest u < (st (N + n)).H i := by
  have A0 := R.A_pos
  have d0 := R.dt_pos
  have q0 := C.inflow
  refine ⟨fun n h => by rw [(within R C n).2.1 h]; ring, ?_⟩
  have : ∃ N, (m.weir w).crest u < (st N).H i := by
    by_contra hn
    push Not at hn
    have lin : ∀ n : ℕ, (st n).H i = (st 0).H i + n * (dt / A * q) := by
      intro n
      induction n with
      | zero => simp
      | succ n ih => rw [(within R C n).2.1 (hn n), ih]; push_cast; ring
    obtain ⟨n, hn'⟩ := exists_nat_gt (((m.weir w).crest u - (st 0).H i) / (dt / A * q))
    rw [div_lt_iff₀ (by positivity)] at hn'
    have := hn n
    rw [lin] at this
    linarith
  obtain ⟨N, hN⟩ := this
  exact ⟨N, stays_above R C hN⟩

/-- The level above the crest relative to the steady one. -/
def relative (m : Model) (i w : ℕ) (u hs : ℝ) (s : Hyd) : ℝ := (s.H i - (m.weir w).crest u) / hs

theorem relative_next (R : OverflowRun m i w A dt q u st) (C : Carries m i w A dt q u st hs) {n : ℕ}
    (h : (m.weir w).crest u < (st n).H i) :
    relative m i w u hs (st (n + 1)) = (relative m i w u hs (st n) + dt * q / (A * hs)) /
      (1 + dt * q / (A * hs) * (perDepth (m.weir w) (hs * relative m i w u hs (st n)) / perDepth (m.weir w) hs)) := by
  have A0 := R.A_pos
  have d0 := R.dt_pos
  have h0 := C.pos
  have p1 := C.per R
  have ce := C.eq R
  have p0 := (perDepth_mono R.proper.1 R.proper.2 (show 0 ≤ (st n).H i - (m.weir w).crest u by linarith) le_rfl).1
  unfold relative
  rw [(within R C n).2.2 h, add_sub_cancel_left, mul_div_cancel₀ _ h0.ne']
  generalize (st n).H i - (m.weir w).crest u = g at *
  generalize perDepth (m.weir w) g = ρ at *
  generalize perDepth (m.weir w) hs = σ at *
  subst ce
  have D : 0 < 1 + dt / A * ρ := by positivity
  have e : dt * (σ * hs) / (A * hs) * (ρ / σ) = dt / A * ρ := by field_simp
  rw [e]
  field_simp

/-- A weir of one width. -/
def Rectangular (w : Weir) : Prop := w.Cwt * w.s = 0

theorem wide_next (R : OverflowRun m i w A dt q u st) (C : Carries m i w A dt q u st hs) (hr : Rectangular (m.weir w)) {n : ℕ}
    (h : (m.weir w).crest u < (st n).H i) :
    relative m i w u hs (st (n + 1)) = wide (dt * q / (A * hs)) (relative m i w u hs (st n)) := by
  rw [relative_next R C h, wide]
  have p := C.per R
  unfold Rectangular at hr
  have h0 := C.pos
  simp only [perDepth, hr, zero_mul, add_zero] at p ⊢
  rw [Real.sqrt_mul h0.le]
  have a : (m.weir w).Cwr * (m.weir w).L ≠ 0 := fun h => by rw [h, zero_mul] at p; exact lt_irrefl _ p
  have s : Real.sqrt hs ≠ 0 := (Real.sqrt_pos.mpr h0).ne'
  congr 3
  rw [div_eq_iff (by positivity)]
  ring

/-- Share of the steady discharge which passes through the slanted sides of the weir. -/
def sideShare (w : Weir) (hs : ℝ) : ℝ := w.Cwt * w.s * hs / (w.Cwr * w.L + w.Cwt * w.s * hs)

theorem Carries.share (C : Carries m i w A dt q u st hs) (R : OverflowRun m i w A dt q u st) :
    0 < (m.weir w).Cwr * (m.weir w).L + (m.weir w).Cwt * (m.weir w).s * hs ∧ 0 ≤ sideShare (m.weir w) hs ∧
      sideShare (m.weir w) hs ≤ 1 := by
  have p := C.per R
  have h0 := C.pos
  obtain ⟨h1, h2⟩ := R.proper
  unfold perDepth at p
  have c0 := (pos_iff_pos_of_mul_pos p).mpr (Real.sqrt_pos.mpr h0)
  have := mul_nonneg h2 h0.le
  refine ⟨c0, div_nonneg this c0.le, ?_⟩
  unfold sideShare
  rw [div_le_one c0]
  linarith

theorem level_next (R : OverflowRun m i w A dt q u st) (C : Carries m i w A dt q u st hs) {n : ℕ}
    (h : (m.weir w).crest u < (st n).H i) :
    relative m i w u hs (st (n + 1)) = level (sideShare (m.weir w) hs) (dt * q / (A * hs)) (relative m i w u hs (st n)) := by
  rw [relative_next R C h, level]
  have c0 := (C.share R).1
  have h0 := C.pos
  have s0 := Real.sqrt_pos.mpr h0
  simp only [perDepth, per, sideShare]
  rw [Real.sqrt_mul h0.le]
  congr 3
  rw [div_eq_iff (by positivity)]
  field_simp
  ring

/-- **C189 (rate).** The level over a rectangular overflow approaches the steady level geometrically, whatever the step. -/
theorem C189_rate (R : OverflowRun m i w A dt q u st) (C : Carries m i w A dt q u st hs) (hr : Rectangular (m.weir w))
    (h : (m.weir w).crest u < (st 0).H i) {d : ℝ}
    (hd : d = max (((st 0).H i - (m.weir w).crest u) / hs) (hs / ((st 0).H i - (m.weir w).crest u)) - 1) :
    rate (dt * q / (A * hs)) d < 1 ∧
      ∀ n, |(st n).H i - ((m.weir w).crest u + hs)| ≤ rate (dt * q / (A * hs)) d ^ n * (hs * d) := by
  have A0 := R.A_pos
  have d0 := R.dt_pos
  have h0 := C.pos
  have q0 := C.inflow
  have a0 : 0 < dt * q / (A * hs) := by positivity
  have r0 : 0 < relative m i w u hs (st 0) := div_pos (by linarith) h0
  have run := wide_run a0 (r := fun n => relative m i w u hs (st n)) r0 fun n hn =>
    wide_next R C hr (by have := (div_pos_iff_of_pos_right h0).mp hn; linarith)
  have ed : off (relative m i w u hs (st 0)) = d := by rw [hd, off, relative, one_div_div]
  rw [ed] at run
  refine ⟨(rate_lt a0 (ed ▸ off_nonneg r0)).2, fun n => ?_⟩
  have := (abs_le_off (run n).1).trans (run n).2
  have e : (st n).H i - ((m.weir w).crest u + hs) = hs * (relative m i w u hs (st n) - 1) := by
    unfold relative; field_simp; ring
  rw [e, abs_mul, abs_of_pos h0]
  exact (mul_le_mul_of_nonneg_left this h0.le).trans (le_of_eq (by ring))

/-- **C189 (settling).** Whatever its first level, a basin settles at the level at which its overflow carries the inflow, if the
volume a step brings, times twice the share passing the slanted sides less one, is at most four times what the basin holds between
the crest and the steady level. -/
theorem C189_settles (R : OverflowRun m i w A dt q u st) (C : Carries m i w A dt q u st hs)
    (small : dt * q * (2 * sideShare (m.weir w) hs - 1) ≤ 4 * (A * hs)) :
    Tendsto (fun n => (st n).H i) atTop (𝓝 ((m.weir w).crest u + hs)) := by
  have A0 := R.A_pos
  have d0 := R.dt_pos
  have h0 := C.pos
  have q0 := C.inflow
  have a0 : 0 < dt * q / (A * hs) := by positivity
  obtain ⟨-, b0, b1⟩ := C.share R
  obtain ⟨N, hN⟩ := (C189_fills R C).2
  have t := level_tendsto a0 b0 b1 (by rw [div_mul_eq_mul_div, div_le_iff₀ (by positivity)]; exact small)
    (x := fun n => relative m i w u hs (st (N + n))) (div_pos (by linarith [hN 0]) h0) fun n _ => level_next R C (hN n)
  have t2 := (t.const_mul hs).const_add ((m.weir w).crest u)
  rw [mul_one] at t2
  rw [← tendsto_add_atTop_iff_nat N]
  refine t2.congr fun n => ?_
  unfold relative
  rw [add_comm n N]
  field_simp
  ring

/-- **C189 (any step).** If the slanted sides carry at most half of the inflow, as over a rectangular weir, it settles whatever
the step. -/
theorem C189_any_step (R : OverflowRun m i w A dt q u st) (C : Carries m i w A dt q u st hs)
    (wide : (m.weir w).Cwt * (m.weir w).s * hs ≤ (m.weir w).Cwr * (m.weir w).L) :
    Tendsto (fun n => (st n).H i) atTop (𝓝 ((m.weir w).crest u + hs)) := by
  refine C189_settles R C ?_
  have A0 := R.A_pos
  have d0 := R.dt_pos
  have h0 := C.pos
  have q0 := C.inflow
  have c0 := (C.share R).1
  have : sideShare (m.weir w) hs ≤ 1 / 2 := by
    unfold sideShare
    rw [div_le_iff₀ c0]
    linarith
  have l : dt * q * (2 * sideShare (m.weir w) hs - 1) ≤ 0 := mul_nonpos_of_nonneg_of_nonpos (by positivity) (by linarith)
  exact l.trans (by positivity)

/-- **C189 (larger steps).** If a step brings more than that volume, the level converges to nothing, unless it is exactly the
steady level from the first step on after which it is above the crest. -/
theorem C189_unsettled (R : OverflowRun m i w A dt q u st) (C : Carries m i w A dt q u st hs)
    (large : 4 * (A * hs) < dt * q * (2 * sideShare (m.weir w) hs - 1)) {l : ℝ}
    (lim : Tendsto (fun n => (st n).H i) atTop (𝓝 l)) {N : ℕ} (above : (m.weir w).crest u < (st N).H i) :
    (st N).H i = (m.weir w).crest u + hs := by
  have A0 := R.A_pos
  have d0 := R.dt_pos
  have h0 := C.pos
  have q0 := C.inflow
  have a0 : 0 < dt * q / (A * hs) := by positivity
  obtain ⟨-, b0, b1⟩ := C.share R
  have hN := stays_above R C above
  have t : Tendsto (fun n => relative m i w u hs (st (N + n))) atTop (𝓝 ((l - (m.weir w).crest u) / hs)) := by
    have := ((tendsto_add_atTop_iff_nat N).mpr lim).sub_const ((m.weir w).crest u)
    have := this.div_const hs
    refine this.congr fun n => ?_
    unfold relative; rw [add_comm]
  have hK := (level_const a0 b0 b1 (by rw [div_mul_eq_mul_div, lt_div_iff₀ (by positivity)]; exact large)
    (fun n => div_pos (by linarith [hN n]) h0) (fun n => level_next R C (hN n)) t).2 0
  have := (div_eq_one_iff_eq h0.ne').mp hK
  rw [add_zero] at this
  linarith

/-! ### A case meeting the hypotheses -/

/-- The basin of `overflow` with weir `W`. -/
def basinModel (W : Weir) : Model := { overflow with weir := fun _ => W }

def basinInp (dt q : ℝ) : Inputs := { overflowInp q with dt := dt }

/-- From every first level there is such a run. -/
theorem basin_run (W : Weir) (hc : W.crest 1 = 1) (hp : 0 ≤ W.Cwr * W.L ∧ 0 ≤ W.Cwt * W.s) {dt q H0 : ℝ} (hdt : 0 < dt)
    (h0 : 0 ≤ H0) : ∃ st, OverflowRun (basinModel W) 0 0 3 dt q 1 st ∧ (st 0).H 0 = H0 := by
  have c : (basinModel W).Consistent := by
    refine ⟨⟨fun _ h => absurd h (Nat.not_lt_zero _), fun _ _ h => absurd h (Nat.not_lt_zero _),
      fun _ _ h => absurd h (Nat.not_lt_zero _)⟩, fun _ h => absurd h (Nat.not_lt_zero _), fun _ h => absurd h (Nat.not_lt_zero _),
      ?_, ?_, ?_, ?_, ?_, ?_, ?_, ?_⟩ <;> simp [basinModel, overflow, exModel]
  have ps : PhysicalStep (basinModel W) exGeo (basinInp dt q) := by
    constructor <;> intros <;> norm_num [basinModel, overflow, basinInp, overflowInp, exModel, exGeo, exInp, hdt]
  have cw : CleanWork (basinModel W) exWork.mats :=
    ⟨⟨fun _ _ _ _ => rfl⟩, ⟨fun _ _ _ _ => rfl, fun _ _ => rfl⟩, ⟨fun _ _ _ _ => rfl, fun _ _ => rfl⟩,
      ⟨fun _ _ _ _ => rfl, fun _ _ => rfl⟩⟩
  have ex : ∀ s : Hyd, ∃ co x, Pass (basinModel W) exGeo (basinInp dt q) exWork s s co x := fun s =>
    C06_step_exists c ps cw fun _ h => absurd h (Nat.not_lt_zero _)
  choose co x pa using ex
  set st : ℕ → Hyd := fun n => Nat.rec (overflowAt H0 (weirFlow H0 0 1 W))
    (fun _ s => (basinModel W).advance exGeo (basinInp dt q) exWork s (co s) (x s)) n with hst
  have low : ∀ n, (st n).H 1 = 0 := by
    intro n
    induction n with
    | zero => simp [hst, overflowAt]
    | succ n ih =>
      have e := (((solves_iff ((basinModel W).net exGeo (basinInp dt q) exWork (st n) (co (st n))) dt exWork.mats cw.mats (wired c)
        (st n).H (basinInp dt q).Q_in ((basinInp dt q).H_bc.getD (st n).H) (x (st n))).mp (pa (st n)).solve) 1
        (by simp [Model.net, basinModel, overflow, exModel])).1 rfl
      have e : x (st n) 1 = 0 := e.trans ih
      change min (max (x (st n) 1) 0) (0 + 10) = 0
      rw [e]; norm_num
  have cr : ((basinModel W).weir 0).crest 1 = 1 := hc
  refine ⟨st, ⟨?_, c, by norm_num, hdt, h0, by rw [cr]; norm_num [basinModel, overflow, exModel], hp, rfl, fun n => ?_, fun n => ?_⟩, rfl⟩
  · refine ⟨by norm_num [basinModel, overflow, exModel], rfl, by norm_num [basinModel, overflow, exModel], rfl,
      by norm_num [basinModel, overflow, exModel], fun k hk => absurd hk (Nat.not_lt_zero _),
      fun k hk => absurd hk (Nat.not_lt_zero _), fun w' hw ne => ?_, fun k hk => absurd hk (Nat.not_lt_zero _)⟩
    simp [basinModel, overflow, exModel] at hw
    omega
  · rw [cr]
    exact (low n).le.trans (by norm_num)
  · exact ⟨exGeo, basinInp dt q, exWork, co (st n), x (st n), cw, rfl, rfl, rfl, rfl, pa (st n), rfl⟩

/-- A rectangular overflow one metre wide and a notch, each carrying 1 at a level of 1 above its crest. -/
def wideWeir : Weir := ⟨1, 0, 1, 1, 0, 1, 1⟩
def notchWeir : Weir := ⟨1, 0, 1, 0, 1, 1, 1⟩

theorem basin_carries (W : Weir) (hc : W.crest 1 = 1) (h1 : W = wideWeir ∨ W = notchWeir) {dt : ℝ} {st : ℕ → Hyd}
    (room : max ((st 0).H 0) (2 + dt / 3) ≤ 10) : Carries (basinModel W) 0 0 3 dt 1 1 st 1 where
  pos := one_pos
  carries := by
    change weirFlow (W.crest 1 + 1) (W.crest 1) 1 W = 1
    rw [weirFlow_law, hc]
    rcases h1 with rfl | rfl <;>
      norm_num [weirLaw_pos, wideWeir, notchWeir]
  inflow := one_pos
  room := by
    change max _ (W.crest 1 + 1 + dt / 3 * 1) ≤ 0 + 10
    rw [hc]
    norm_num
    exact max_le_iff.mp room

/-- From an empty basin with a step of 20, ... -/
example : ∃ st, OverflowRun (basinModel wideWeir) 0 0 3 20 1 1 st ∧ (st 0).H 0 = 0 ∧
    Tendsto (fun n => (st n).H 0) atTop (𝓝 2) := by
  have hc : wideWeir.crest 1 = 1 := by norm_num [wideWeir, Weir.crest]
  obtain ⟨st, R, e⟩ := basin_run wideWeir hc (by norm_num [wideWeir]) (dt := 20) (q := 1) (H0 := 0) (by norm_num) le_rfl
  have C := basin_carries wideWeir hc (Or.inl rfl) (dt := 20) (st := st) (by rw [e]; norm_num)
  refine ⟨st, R, e, ?_⟩
  have t := C189_any_step R C (by simp [basinModel, wideWeir])
  have l : ((basinModel wideWeir).weir 0).crest 1 + 1 = 2 := by
    change wideWeir.crest 1 + 1 = 2
    rw [hc]; norm_num
  rwa [l] at t

/-- Over the notch a step of 12, from an empty basin, still settles, ... -/
example : ∃ st, OverflowRun (basinModel notchWeir) 0 0 3 12 1 1 st ∧ (st 0).H 0 = 0 ∧
    Tendsto (fun n => (st n).H 0) atTop (𝓝 2) := by
  have hc : notchWeir.crest 1 = 1 := by norm_num [notchWeir, Weir.crest]
  obtain ⟨st, R, e⟩ := basin_run notchWeir hc (by norm_num [notchWeir]) (dt := 12) (q := 1) (H0 := 0) (by norm_num) le_rfl
  have C := basin_carries notchWeir hc (Or.inr rfl) (dt := 12) (st := st) (by rw [e]; norm_num)
  refine ⟨st, R, e, ?_⟩
  have t := C189_settles R C (by norm_num [sideShare, basinModel, notchWeir])
  have l : ((basinModel notchWeir).weir 0).crest 1 + 1 = 2 := by
    change notchWeir.crest 1 + 1 = 2
    rw [hc]; norm_num
  rwa [l] at t

/-- ... whereas with a step of 20 the levels of a run which starts half a metre above the crest do
not converge. -/
example : ∃ st, OverflowRun (basinModel notchWeir) 0 0 3 20 1 1 st ∧ (st 0).H 0 = 1.5 ∧
    ¬ ∃ l, Tendsto (fun n => (st n).H 0) atTop (𝓝 l) := by
  have hc : notchWeir.crest 1 = 1 := by norm_num [notchWeir, Weir.crest]
  obtain ⟨st, R, e⟩ := basin_run notchWeir hc (by norm_num [notchWeir]) (dt := 20) (q := 1) (H0 := 1.5) (by norm_num) (by norm_num)
  have C := basin_carries notchWeir hc (Or.inr rfl) (dt := 20) (st := st) (by rw [e]; norm_num)
  refine ⟨st, R, e, fun ⟨l, h⟩ => ?_⟩
  have cr : ((basinModel notchWeir).weir 0).crest 1 = 1 := hc
  have t := C189_unsettled R C (by norm_num [sideShare, basinModel, notchWeir]) h (N := 0) (by rw [cr, e]; norm_num)
  rw [cr, e] at t
  norm_num at t

end

end Pipedream.Step
