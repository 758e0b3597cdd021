import Verif.SettleProps

/-!
# C160: the passes of a step over a basin with an overflow

With `num_iter > 1` a step repeats its pass (superlink.py 4128–4148). For a basin which drains over a weir the passes converge to the
level which solves the implicit equation of the step, or they do not, depending on the size of the step.
-/

namespace Pipedream.Step

open Pipedream.Sweep Pipedream.Link Pipedream.Superlink Pipedream.Control Pipedream.Network Settle Filter Topology

variable {m : Model} {i w : ℕ} {A dt q u hs : ℝ} {st : ℕ → Hyd}

noncomputable section

/-! ### Specification -/

/-- The states `st 1`, `st 2`, … after the passes of one step of size `dt` from `st 0`, in which basin `i` has the surface `A`,
receives `q` and overflows freely over weir `w` at setting `u`. -/
structure OverflowPasses (m : Model) (i w : ℕ) (A dt q u : ℝ) (st : ℕ → Hyd) : Prop where
  basin : Basin m i w
  consistent : m.Consistent
  A_pos : 0 < A
  dt_pos : 0 < dt
  crest : m.z_inv i ≤ (m.weir w).crest u
  proper : 0 ≤ (m.weir w).Cwr * (m.weir w).L ∧ 0 ≤ (m.weir w).Cwt * (m.weir w).s
  start : (st 0).Qw w = weirFlow ((st 0).H i) ((st 0).H (m.Jdw w)) u (m.weir w)
  free : ∀ n, (st n).H (m.Jdw w) ≤ (m.weir w).crest u
  pass : ∀ n, ∃ (geo : Geo) (inp : Inputs) (wk : Work) (co : Coef ℝ) (x : ℕ → ℝ), CleanWork m wk.mats ∧ geo.As i = A ∧
    inp.dt = dt ∧ inp.Q_in i = q ∧ inp.u_w w = u ∧ Pass m geo inp wk (st 0) (st n) co x ∧
    st (n + 1) = m.advance geo inp wk (st n) co x
  room : m.z_inv i ≤ (st 0).H i + dt * q / A ∧ (st 0).H i + dt * q / A ≤ m.z_inv i + m.max_depth i

/-- The level `hs` above the crest solves the equation of the step with the overflow taken at the new level. -/
structure SolvesStep (m : Model) (i w : ℕ) (A dt q u : ℝ) (st : ℕ → Hyd) (hs : ℝ) : Prop where
  pos : 0 < hs
  eq : A / dt * ((m.weir w).crest u + hs - (st 0).H i)
    = q - weirFlow ((m.weir w).crest u + hs) ((m.weir w).crest u) u (m.weir w)

/-! ### One pass -/

theorem free_flow_pass (R : OverflowPasses m i w A dt q u st) (n : ℕ) (h : (m.weir w).crest u < (st n).H i) :
    (st n).Qw w = weirLaw (m.weir w) ((st n).H i - (m.weir w).crest u) := by
  have e : (st n).Qw w = weirFlow ((st n).H i) ((st n).H (m.Jdw w)) u (m.weir w) := by
    cases n with
    | zero => exact R.start
    | succ n =>
      obtain ⟨geo, inp, wk, co, x, -, -, -, -, eu, -, es⟩ := R.pass n
      rw [es, ← eu]
      change weirFlow ((m.advance geo inp wk (st n) co x).H (m.Juw w)) _ _ _ = _
      rw [R.basin.src]
      rfl
  rw [e, weirFlow_law, max_eq_left h.le, max_eq_right (R.free n)]

/-- The head left by a pass. -/
theorem pass_next (R : OverflowPasses m i w A dt q u st) (n : ℕ) :
    ∃ y, (st (n + 1)).H i = min (max y (m.z_inv i)) (m.z_inv i + m.max_depth i) ∧
      ((st n).H i ≤ (m.weir w).crest u → y = (st 0).H i + dt * q / A) ∧
      ((m.weir w).crest u < (st n).H i → y = (m.weir w).crest u + ((st 0).H i + dt * q / A - (m.weir w).crest u) /
        (1 + dt / A * perDepth (m.weir w) ((st n).H i - (m.weir w).crest u))) := by
  have A0 := R.A_pos
  have d0 := R.dt_pos
  obtain ⟨geo, inp, wk, co, x, cw, eA, edt, eq, eu, pa, es⟩ := R.pass n
  have b := basin_balance R.basin R.consistent cw pa
  rw [eA, edt, eq] at b
  refine ⟨x i, by rw [es]; rfl, fun h => ?_, fun h => ?_⟩
  · have z : (m.wLin inp wk (st n) w).eval (x i) (x (m.Jdw w)) = 0 := by
      unfold Model.wLin
      exact weirLin_below (by rw [R.basin.src, eu]; exact h) (by rw [eu]; exact R.free n) _ _
    rw [z] at b
    field_simp at b ⊢
    linarith
  · have z : (m.wLin inp wk (st n) w).eval (x i) (x (m.Jdw w))
        = perDepth (m.weir w) ((st n).H i - (m.weir w).crest u) * (x i - (m.weir w).crest u) := by
      unfold Model.wLin
      rw [weirLin_free (by rw [R.basin.src, eu]; exact h) (by rw [eu]; exact R.free n), R.basin.src, eu, free_flow_pass R n h,
        slope_perDepth R.proper.1 R.proper.2 (by linarith)]
    rw [z] at b
    have p0 := (perDepth_mono R.proper.1 R.proper.2 (show 0 ≤ (st n).H i - (m.weir w).crest u by linarith) le_rfl).1
    generalize perDepth (m.weir w) ((st n).H i - (m.weir w).crest u) = ρ at *
    have D : 0 < 1 + dt / A * ρ := by positivity
    rw [← sub_eq_iff_eq_add', eq_div_iff D.ne']
    field_simp at b ⊢
    linarith

theorem SolvesStep.full (S : SolvesStep m i w A dt q u st hs) (R : OverflowPasses m i w A dt q u st) :
    (st 0).H i + dt * q / A - (m.weir w).crest u = hs * (1 + dt / A * perDepth (m.weir w) hs) := by
  have A0 := R.A_pos
  have d0 := R.dt_pos
  have e := S.eq
  rw [weirFlow_law, max_eq_left (by linarith [S.pos]), max_self, add_sub_cancel_left,
    law_perDepth R.proper.1 R.proper.2 S.pos.le] at e
  generalize perDepth (m.weir w) hs = ρ at *
  field_simp at e ⊢
  linarith

/-- After a pass the level is above the crest; the limits of the head are not reached. -/
theorem pass_above (R : OverflowPasses m i w A dt q u st) (S : SolvesStep m i w A dt q u st hs) (n : ℕ) :
    (m.weir w).crest u < (st (n + 1)).H i ∧ (st (n + 1)).H i ≤ (st 0).H i + dt * q / A ∧
      ((m.weir w).crest u < (st n).H i → (st (n + 1)).H i = (m.weir w).crest u + ((st 0).H i + dt * q / A - (m.weir w).crest u) /
        (1 + dt / A * perDepth (m.weir w) ((st n).H i - (m.weir w).crest u))) := by
  have A0 := R.A_pos
  have d0 := R.dt_pos
  have s0 := S.pos
  have f := S.full R
  have ps := (perDepth_mono R.proper.1 R.proper.2 s0.le le_rfl).1
  have c0 : 0 < (st 0).H i + dt * q / A - (m.weir w).crest u := by rw [f]; positivity
  have rm := R.room.2
  have cr := R.crest
  obtain ⟨y, ey, e1, e2⟩ := pass_next R n
  have k : (m.weir w).crest u < y ∧ y ≤ (st 0).H i + dt * q / A := by
    rcases le_or_gt ((st n).H i) ((m.weir w).crest u) with h | h
    · rw [e1 h]; exact ⟨by linarith, le_rfl⟩
    · rw [e2 h]
      have p0 := (perDepth_mono R.proper.1 R.proper.2 (show 0 ≤ (st n).H i - (m.weir w).crest u by linarith) le_rfl).1
      generalize perDepth (m.weir w) ((st n).H i - (m.weir w).crest u) = ρ at *
      have D : 1 ≤ 1 + dt / A * ρ := by have : 0 ≤ dt / A * ρ := by positivity
                                        linarith
      have l := div_le_self c0.le D
      have p := div_pos c0 (one_pos.trans_le D)
      exact ⟨by linarith, by linarith⟩
  rw [max_eq_left (by linarith), min_eq_left (by linarith)] at ey
  rw [ey]
  exact ⟨k.1, k.2, e2⟩

theorem SolvesStep.share (S : SolvesStep m i w A dt q u st hs) (R : OverflowPasses m i w A dt q u st)
    (carries : 0 < perDepth (m.weir w) hs) :
    0 < (m.weir w).Cwr * (m.weir w).L + (m.weir w).Cwt * (m.weir w).s * hs ∧ 0 ≤ sideShare (m.weir w) hs ∧
      sideShare (m.weir w) hs ≤ 1 := by
  have h0 := S.pos
  obtain ⟨h1, h2⟩ := R.proper
  have c0 := (pos_iff_pos_of_mul_pos carries).mpr (Real.sqrt_pos.mpr h0)
  have := mul_nonneg h2 h0.le
  refine ⟨c0, div_nonneg this c0.le, ?_⟩
  unfold sideShare
  rw [div_le_one c0]
  linarith

theorem repass_next (R : OverflowPasses m i w A dt q u st) (S : SolvesStep m i w A dt q u st hs)
    (carries : 0 < perDepth (m.weir w) hs) (n : ℕ) :
    relative m i w u hs (st (n + 2))
      = repass (sideShare (m.weir w) hs) (dt / A * perDepth (m.weir w) hs) (relative m i w u hs (st (n + 1))) := by
  have A0 := R.A_pos
  have d0 := R.dt_pos
  have h0 := S.pos
  have c0 := (S.share R carries).1
  have s0 := Real.sqrt_pos.mpr h0
  obtain ⟨ab, -, -⟩ := pass_above R S n
  have e := (pass_above R S (n + 1)).2.2 ab
  have g0 : 0 < (st (n + 1)).H i - (m.weir w).crest u := by linarith
  have p0 := (perDepth_mono R.proper.1 R.proper.2 g0.le le_rfl).1
  rw [S.full R] at e
  have key : perDepth (m.weir w) ((st (n + 1)).H i - (m.weir w).crest u)
      = perDepth (m.weir w) hs * per (sideShare (m.weir w) hs) (((st (n + 1)).H i - (m.weir w).crest u) / hs) := by
    unfold perDepth per sideShare
    rw [Real.sqrt_div g0.le]
    field_simp
    ring
  unfold relative repass
  rw [e, key]
  rw [key] at p0
  have D : 0 < 1 + dt / A * (perDepth (m.weir w) hs
      * per (sideShare (m.weir w) hs) (((st (n + 1)).H i - (m.weir w).crest u) / hs)) := by positivity
  rw [add_sub_cancel_left, mul_assoc (dt / A)]
  generalize 1 + dt / A * (perDepth (m.weir w) hs
    * per (sideShare (m.weir w) hs) (((st (n + 1)).H i - (m.weir w).crest u) / hs)) = P at D ⊢
  field_simp

/-! ### C160 -/

/-- **C160 (no overflow).** If the inflow does not lift the basin above the crest, two passes are enough. -/
theorem C160_dry_crest (R : OverflowPasses m i w A dt q u st) (low : (st 0).H i + dt * q / A ≤ (m.weir w).crest u) (n : ℕ) :
    (st (n + 2)).H i = (st 0).H i + dt * q / A := by
  have A0 := R.A_pos
  have d0 := R.dt_pos
  have cr := R.crest
  have rm := R.room
  have stay : ∀ n, (st (n + 1)).H i ≤ (m.weir w).crest u := by
    intro n
    obtain ⟨y, ey, e1, e2⟩ := pass_next R n
    have k : y ≤ (m.weir w).crest u := by
      rcases le_or_gt ((st n).H i) ((m.weir w).crest u) with h | h
      · rw [e1 h]; exact low
      · rw [e2 h]
        have p0 := (perDepth_mono R.proper.1 R.proper.2 (show 0 ≤ (st n).H i - (m.weir w).crest u by linarith) le_rfl).1
        have D : 0 ≤ 1 + dt / A * perDepth (m.weir w) ((st n).H i - (m.weir w).crest u) := by positivity
        have := div_nonpos_of_nonpos_of_nonneg (sub_nonpos.mpr low) D
        linarith
    rw [ey]
    exact (min_le_left _ _).trans (max_le k cr)
  obtain ⟨y, ey, e1, -⟩ := pass_next R (n + 1)
  rw [show n + 2 = n + 1 + 1 from rfl, ey, e1 (stay n), max_eq_left rm.1, min_eq_left rm.2]

/-- **C160 (convergence).** If the overflow at the solution, times twice the share passing the slanted sides less one, drains in one
step at most twice what the basin then holds above the crest, the passes converge to the solution from whatever state. -/
theorem C160_passes_converge (R : OverflowPasses m i w A dt q u st) (S : SolvesStep m i w A dt q u st hs)
    (carries : 0 < perDepth (m.weir w) hs)
    (small : dt * perDepth (m.weir w) hs * (2 * sideShare (m.weir w) hs - 1) ≤ 2 * A) :
    Tendsto (fun n => (st n).H i) atTop (𝓝 ((m.weir w).crest u + hs)) := by
  have A0 := R.A_pos
  have d0 := R.dt_pos
  have h0 := S.pos
  obtain ⟨-, b0, b1⟩ := S.share R carries
  obtain ⟨ab, top, -⟩ := pass_above R S 0
  have t := repass_tendsto (a := dt / A * perDepth (m.weir w) hs) (by positivity) b0 b1
    (by rw [div_mul_eq_mul_div, div_mul_eq_mul_div, div_le_iff₀ A0]; exact small)
    (x := fun n => relative m i w u hs (st (n + 1))) (div_pos (by linarith) h0)
    (by
      have f := S.full R
      unfold relative
      rw [div_le_iff₀ h0]
      linarith) fun n _ => repass_next R S carries n
  have t2 := (t.const_mul hs).const_add ((m.weir w).crest u)
  rw [mul_one] at t2
  rw [← tendsto_add_atTop_iff_nat 1]
  refine t2.congr fun n => ?_
  unfold relative
  field_simp
  ring

/-- **C160 (any step).** In particular over a weir whose slanted sides carry at most half of its discharge. -/
theorem C160_wide_weirs (R : OverflowPasses m i w A dt q u st) (S : SolvesStep m i w A dt q u st hs)
    (carries : 0 < perDepth (m.weir w) hs) (wide : (m.weir w).Cwt * (m.weir w).s * hs ≤ (m.weir w).Cwr * (m.weir w).L) :
    Tendsto (fun n => (st n).H i) atTop (𝓝 ((m.weir w).crest u + hs)) := by
  have A0 := R.A_pos
  have d0 := R.dt_pos
  refine C160_passes_converge R S carries ?_
  have c0 := (S.share R carries).1
  have : sideShare (m.weir w) hs ≤ 1 / 2 := by
    unfold sideShare
    rw [div_le_iff₀ c0]
    linarith
  have l : dt * perDepth (m.weir w) hs * (2 * sideShare (m.weir w) hs - 1) ≤ 0 :=
    mul_nonpos_of_nonneg_of_nonpos (by positivity) (by linarith)
  exact l.trans (by positivity)

/-- **C160 (no convergence).** If it drains more, the passes converge to nothing, however many are made, unless the first one finds
the solution exactly. -/
theorem C160_passes_diverge (R : OverflowPasses m i w A dt q u st) (S : SolvesStep m i w A dt q u st hs)
    (carries : 0 < perDepth (m.weir w) hs)
    (large : 2 * A < dt * perDepth (m.weir w) hs * (2 * sideShare (m.weir w) hs - 1)) {l : ℝ}
    (lim : Tendsto (fun n => (st n).H i) atTop (𝓝 l)) : (st 1).H i = (m.weir w).crest u + hs := by
  have A0 := R.A_pos
  have d0 := R.dt_pos
  have h0 := S.pos
  obtain ⟨-, b0, b1⟩ := S.share R carries
  have t : Tendsto (fun n => relative m i w u hs (st (n + 1))) atTop (𝓝 ((l - (m.weir w).crest u) / hs)) :=
    (((tendsto_add_atTop_iff_nat 1).mpr lim).sub_const ((m.weir w).crest u)).div_const hs
  have := repass_const (a := dt / A * perDepth (m.weir w) hs) (by positivity) b0 b1
    (by rw [div_mul_eq_mul_div, div_mul_eq_mul_div, lt_div_iff₀ A0]; exact large)
    (fun n => div_pos (by linarith [(pass_above R S n).1]) h0) (fun n => repass_next R S carries n) t
  have := (div_eq_one_iff_eq h0.ne').mp this
  linarith

/-! ### A case meeting the hypotheses -/

/-- From every first level such passes exist. -/
theorem basin_passes (W : Weir) (hc : W.crest 1 = 1) (hp : 0 ≤ W.Cwr * W.L ∧ 0 ≤ W.Cwt * W.s) {dt q H0 : ℝ} (hdt : 0 < dt)
    (rm : 0 ≤ H0 + dt * q / 3 ∧ H0 + dt * q / 3 ≤ 10) :
    ∃ st, OverflowPasses (basinModel W) 0 0 3 dt q 1 st ∧ (st 0).H 0 = H0 := by
  have c : (basinModel W).Consistent := by
    refine ⟨⟨fun _ h => absurd h (Nat.not_lt_zero _), fun _ _ h => absurd h (Nat.not_lt_zero _),
      fun _ _ h => absurd h (Nat.not_lt_zero _)⟩, fun _ h => absurd h (Nat.not_lt_zero _), fun _ h => absurd h (Nat.not_lt_zero _),
      ?_, ?_, ?_, ?_, ?_, ?_, ?_, ?_⟩ <;> simp [basinModel, overflow, exModel]
  have ps : PhysicalStep (basinModel W) exGeo (basinInp dt q) := by
    constructor <;> intros <;> norm_num [basinModel, overflow, basinInp, overflowInp, exModel, exGeo, exInp, hdt]
  have cw : CleanWork (basinModel W) exWork.mats :=
    ⟨⟨fun _ _ _ _ => rfl⟩, ⟨fun _ _ _ _ => rfl, fun _ _ => rfl⟩, ⟨fun _ _ _ _ => rfl, fun _ _ => rfl⟩,
      ⟨fun _ _ _ _ => rfl, fun _ _ => rfl⟩⟩
  set first : Hyd := overflowAt H0 (weirFlow H0 0 1 W) with hf
  have ex : ∀ s : Hyd, ∃ co x, Pass (basinModel W) exGeo (basinInp dt q) exWork first s co x := fun s =>
    C06_step_exists c ps cw fun _ h => absurd h (Nat.not_lt_zero _)
  choose co x pa using ex
  set st : ℕ → Hyd := fun n => Nat.rec first
    (fun _ s => (basinModel W).advance exGeo (basinInp dt q) exWork s (co s) (x s)) n with hst
  have low : ∀ n, (st n).H 1 = 0 := by
    intro n
    induction n with
    | zero => simp [hst, hf, overflowAt]
    | succ n ih =>
      have e := (((solves_iff ((basinModel W).net exGeo (basinInp dt q) exWork (st n) (co (st n))) dt exWork.mats cw.mats (wired c)
        first.H (basinInp dt q).Q_in ((basinInp dt q).H_bc.getD (st n).H) (x (st n))).mp (pa (st n)).solve) 1
        (by simp [Model.net, basinModel, overflow, exModel])).1 rfl
      have e : x (st n) 1 = 0 := e.trans ih
      change min (max (x (st n) 1) 0) (0 + 10) = 0
      rw [e]; norm_num
  have cr : ((basinModel W).weir 0).crest 1 = 1 := hc
  refine ⟨st, ⟨?_, c, by norm_num, hdt, by rw [cr]; norm_num [basinModel, overflow, exModel], hp, rfl, fun n => ?_, fun n => ?_, ?_⟩, rfl⟩
  · refine ⟨by norm_num [basinModel, overflow, exModel], rfl, by norm_num [basinModel, overflow, exModel], rfl,
      by norm_num [basinModel, overflow, exModel], fun k hk => absurd hk (Nat.not_lt_zero _),
      fun k hk => absurd hk (Nat.not_lt_zero _), fun w' hw ne => ?_, fun k hk => absurd hk (Nat.not_lt_zero _)⟩
    simp [basinModel, overflow, exModel] at hw
    omega
  · rw [cr]
    exact (low n).le.trans (by norm_num)
  · exact ⟨exGeo, basinInp dt q, exWork, co (st n), x (st n), cw, rfl, rfl, rfl, rfl, pa (st n), rfl⟩
  · change 0 ≤ H0 + dt * q / 3 ∧ H0 + dt * q / 3 ≤ 0 + 10
    rwa [zero_add]

/-- A step of 9 into a basin which is full to 2 above the floor: the passes over a rectangular weir settle at a level of 1 above
the crest, ... -/
example : ∃ st, OverflowPasses (basinModel wideWeir) 0 0 3 9 1 1 st ∧ (st 0).H 0 = 2 ∧
    Tendsto (fun n => (st n).H 0) atTop (𝓝 2) := by
  have hc : wideWeir.crest 1 = 1 := by norm_num [wideWeir, Weir.crest]
  obtain ⟨st, R, e⟩ := basin_passes wideWeir hc (by norm_num [wideWeir]) (dt := 9) (q := 1) (H0 := 2) (by norm_num) (by norm_num)
  have l : ((basinModel wideWeir).weir 0).crest 1 = 1 := hc
  have S : SolvesStep (basinModel wideWeir) 0 0 3 9 1 1 st 1 := by
    refine ⟨one_pos, ?_⟩
    rw [weirFlow_law, l, e]
    norm_num [weirLaw_pos, wideWeir, basinModel]
  refine ⟨st, R, e, ?_⟩
  have t := C160_wide_weirs R S (by norm_num [perDepth, basinModel, wideWeir]) (by simp [basinModel, wideWeir])
  rw [l] at t
  norm_num at t
  exact t

/-- ... those over a notch, from the crest, converge to nothing. -/
example : ∃ st, OverflowPasses (basinModel notchWeir) 0 0 3 9 (4 / 3) 1 st ∧ (st 0).H 0 = 1 ∧
    ¬ ∃ l, Tendsto (fun n => (st n).H 0) atTop (𝓝 l) := by
  have hc : notchWeir.crest 1 = 1 := by norm_num [notchWeir, Weir.crest]
  obtain ⟨st, R, e⟩ := basin_passes notchWeir hc (by norm_num [notchWeir]) (dt := 9) (q := 4 / 3) (H0 := 1) (by norm_num)
    (by norm_num)
  have l : ((basinModel notchWeir).weir 0).crest 1 = 1 := hc
  have S : SolvesStep (basinModel notchWeir) 0 0 3 9 (4 / 3) 1 st 1 := by
    refine ⟨one_pos, ?_⟩
    rw [weirFlow_law, l, e]
    norm_num [weirLaw_pos, notchWeir, basinModel]
  refine ⟨st, R, e, fun ⟨z, h⟩ => ?_⟩
  have t := C160_passes_diverge R S (by norm_num [perDepth, basinModel, notchWeir])
    (by norm_num [perDepth, sideShare, basinModel, notchWeir]) h
  obtain ⟨y, ey, e1, -⟩ := pass_next R 0
  rw [e1 (by rw [l, e]), e] at ey
  rw [zero_add] at ey
  rw [l, ey] at t
  norm_num [basinModel, overflow, exModel] at t

end

end Pipedream.Step
