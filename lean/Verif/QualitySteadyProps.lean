import Verif.QualityForgetProps

/-!
# Steady concentrations (C175)

Under constant conditions there is exactly one steady distribution of concentrations; it does not depend on the step
size, and every run tends to it. Default limits `c_min = 0`, `c_max = np.inf` (nquality.py 98, 204–205).
-/

namespace Pipedream.Quality

open Pipedream.Network Pipedream.Link Pipedream.Sweep Filter Topology

/-! ### Specification -/

/-- Nothing changes in time. The step size does not occur. -/
def SteadyConc (w : Wiring) (p : Params ℝ) (y : Hydro ℝ) (inp : Inputs ℝ) (c : Conc ℝ) : Prop :=
  Rates w p y inp c (Conc.const 0)

/-- All steps have the same reaction, dispersion, flows, volumes and inputs; their sizes may differ. -/
def Constant (p : Params ℝ) (y : Hydro ℝ) (inp : Inputs ℝ) (ds : List (StepData ℝ)) : Prop :=
  ∀ d ∈ ds, d.p = p ∧ d.inp = inp ∧
    d.y = { y with
      dt := d.y.dt, A_prev := d.y.A_prev, h_prev := d.y.h_prev, A_u_prev := d.y.A_u_prev,
      A_d_prev := d.y.A_d_prev, V_prev := d.y.V_prev }

/-! ### Helpers -/

section

variable {w : Wiring} {p : Params ℝ} {y : Hydro ℝ} {inp : Inputs ℝ} {F : ℝ} {a r c c1 c2 n1 n2 : Conc ℝ}

/-- The equations see the old concentrations of the network only. -/
theorem transport_from (T : Transport w p y inp c1 n1) (S : SameOn w c1 c2) : Transport w p y inp c2 n1 := by
  refine ⟨fun k hk => ⟨fun j hj => ?_, fun j hj => ?_, ?_, ?_⟩, fun i hi hb => ?_, fun i hi hb => ?_⟩
  · rw [← S.i k hk j hj]; exact (T.links k hk).link j hj
  · rw [← S.I k hk j hj]; exact (T.links k hk).node j hj
  · rw [← S.u k hk]; exact (T.links k hk).up
  · rw [← S.d k hk]; exact (T.links k hk).dn
  · rw [T.fixed i hi hb]
    cases inp.c_bc with
    | none => exact S.j i hi
    | some b => rfl
  · rw [← S.j i hi]; exact T.super i hi hb

/-- A steady distribution is reproduced by every step. -/
theorem transport_of_steady (B : WaterBalance w y inp) (hdt : y.dt ≠ 0) (R : SteadyConc w p y inp c) :
    Transport w p y inp c c :=
  transport_from (transport_of_rates B hdt R) ⟨fun _ _ => by simp [Conc.comb, Conc.const],
    fun _ _ _ _ => by simp [Conc.comb, Conc.const], fun _ _ _ _ => by simp [Conc.comb, Conc.const],
    fun _ _ => by simp [Conc.comb, Conc.const], fun _ _ => by simp [Conc.comb, Conc.const]⟩

theorem rate_of_cell {dt V V_prev G Kr c net src : ℝ} (hdt : dt ≠ 0) (hG : (V - V_prev) / dt = G)
    (h : CellEq dt V V_prev Kr c c net src) : RateEq V G Kr c 0 net src := by
  unfold CellEq at h
  unfold RateEq
  rw [← hG]
  field_simp at h ⊢
  linear_combination h

/-- What a step reproduces is steady. -/
theorem steady_of_transport (B : WaterBalance w y inp) (hdt : y.dt ≠ 0) (hb : inp.c_bc.isSome = true)
    (T : Transport w p y inp c c) : SteadyConc w p y inp c := by
  refine ⟨fun k hk => ⟨fun j hj => ?_, fun j hj => ?_, ?_, ?_⟩, fun i hi hb' => ?_, fun i hi hb' => ?_⟩
  · refine rate_of_cell hdt ?_ ((T.links k hk).link j hj)
    have := B.link k hk j hj
    rw [← mul_sub]; linarith
  · refine rate_of_cell hdt ?_ ((T.links k hk).node j hj)
    have := B.node k hk j hj
    rw [← mul_sub]; linarith
  · refine rate_of_cell hdt ?_ (T.links k hk).up
    have := B.up k hk
    rw [← mul_sub]; linarith
  · refine rate_of_cell hdt ?_ (T.links k hk).dn
    have := B.dn k hk
    rw [← mul_sub]; linarith
  · obtain ⟨b, hb⟩ := Option.isSome_iff_exists.mp hb
    refine .inr ⟨b, hb, ?_⟩
    rw [T.fixed i hi hb', hb]; rfl
  · refine rate_of_cell hdt ?_ (T.super i hi hb')
    have := B.super i hi hb'
    linarith

/-- Every state has a next one. -/
theorem transport_next (W : Wired w) (P : Physical w p y inp) (B : WaterBalance w y inp) (In : InGe w 0 inp c)
    (C : AllGe w 0 c) : ∃ n, AllGe w 0 n ∧ Transport w p y inp c n := by
  let wk : Work ℝ := ⟨⟨fun _ _ => 0, fun _ _ => 0, fun _ _ => 0, fun _ _ => 0⟩,
    ⟨fun _ => 0, fun _ => 0, fun _ => 0, fun _ => 0⟩, ⟨fun _ => 0, fun _ => 0, fun _ => 0, fun _ => 0⟩⟩
  have m : CleanMats w wk.mats := cleanMats_zero w
  obtain ⟨x, hx⟩ := (C75_solvable (c := c) W P B m).1
  have := step_exact (d := ⟨p, y, inp, x⟩) (s := (c, wk)) W m C ⟨P, B, In, hx⟩
  exact ⟨_, this.2, this.1⟩

theorem bounded (n : ℕ) (g : ℕ → ℝ) : ∃ b, 0 ≤ b ∧ ∀ i, i < n → |g i| ≤ b :=
  ⟨∑ i ∈ Finset.range n, |g i|, Finset.sum_nonneg fun _ _ => abs_nonneg _, fun _ hi =>
    Finset.single_le_sum (f := fun i => |g i|) (fun _ _ => abs_nonneg _) (Finset.mem_range.mpr hi)⟩

theorem bounded2 (n : ℕ) (N : ℕ → ℕ) (g : ℕ → ℕ → ℝ) : ∃ b, 0 ≤ b ∧ ∀ k, k < n → ∀ j, j < N k → |g k j| ≤ b := by
  choose b h0 hb using fun k => bounded (N k) (g k)
  obtain ⟨B, hB0, hB⟩ := bounded n b
  exact ⟨B, hB0, fun k hk j hj => (hb k j hj).trans ((le_abs_self _).trans (hB k hk))⟩

theorem exists_near (w : Wiring) (c1 c2 : Conc ℝ) : ∃ δ, 0 ≤ δ ∧ NearOn w δ c1 c2 := by
  obtain ⟨b1, p1, h1⟩ := bounded w.M fun i => c1.j i - c2.j i
  obtain ⟨b2, p2, h2⟩ := bounded2 w.ix.NK (fun k => w.ix.nk k + 1)
    fun k j => c1.I (w.ix.I_1k k + j) - c2.I (w.ix.I_1k k + j)
  obtain ⟨b3, p3, h3⟩ := bounded2 w.ix.NK (fun k => w.ix.nk k)
    fun k j => c1.i (w.ix.i_1k k + j) - c2.i (w.ix.i_1k k + j)
  obtain ⟨b4, p4, h4⟩ := bounded w.ix.NK fun k => c1.u k - c2.u k
  obtain ⟨b5, p5, h5⟩ := bounded w.ix.NK fun k => c1.d k - c2.d k
  refine ⟨b1 + b2 + b3 + b4 + b5, by positivity, fun i hi => (h1 i hi).trans (by linarith),
    fun k hk j hj => (h2 k hk j (by omega)).trans (by linarith), fun k hk j hj => (h3 k hk j hj).trans (by linarith),
    fun k hk => (h4 k hk).trans (by linarith), fun k hk => (h5 k hk).trans (by linarith)⟩

theorem nearOn_le {δ ε : ℝ} (S : NearOn w δ c1 c2) (h : δ ≤ ε) : NearOn w ε c1 c2 :=
  ⟨fun i hi => (S.j i hi).trans h, fun k hk j hj => (S.I k hk j hj).trans h,
    fun k hk j hj => (S.i k hk j hj).trans h, fun k hk => (S.u k hk).trans h, fun k hk => (S.d k hk).trans h⟩

/-- Arbitrarily close means equal. -/
theorem sameOn_of_near {e : ℕ → ℝ} (he : Tendsto e atTop (𝓝 0)) (S : ∀ n, NearOn w (e n) c1 c2) : SameOn w c1 c2 := by
  have z : ∀ {x y : ℝ}, (∀ n, |x - y| ≤ e n) → x = y := fun h =>
    sub_eq_zero.mp (abs_eq_zero.mp (le_antisymm (ge_of_tendsto' he h) (abs_nonneg _)))
  exact ⟨fun i hi => z fun n => (S n).j i hi, fun k hk j hj => z fun n => (S n).I k hk j hj,
    fun k hk j hj => z fun n => (S n).i k hk j hj, fun k hk => z fun n => (S n).u k hk,
    fun k hk => z fun n => (S n).d k hk⟩

/-- A sequence whose increments shrink geometrically has a limit. -/
theorem near_limit {f : ℕ → Conc ℝ} {D q : ℝ} (hq : q < 1) (S : ∀ n, NearOn w (D * q ^ n) (f n) (f (n + 1))) :
    ∃ l, ∀ n, NearOn w (D * q ^ n / (1 - q)) (f n) l := by
  have z : ∀ {x : ℕ → ℝ}, (∀ n, |x n - x (n + 1)| ≤ D * q ^ n) →
      ∀ n, |x n - limUnder atTop x| ≤ D * q ^ n / (1 - q) := by
    intro x h n
    have h' : ∀ n, dist (x n) (x (n + 1)) ≤ D * q ^ n := fun n => by rw [Real.dist_eq]; exact h n
    have t := (cauchySeq_of_le_geometric q D hq h').tendsto_limUnder
    have := dist_le_of_le_geometric_of_tendsto q D hq h' t n
    rwa [Real.dist_eq] at this
  exact ⟨⟨fun i => limUnder atTop fun n => (f n).j i, fun i => limUnder atTop fun n => (f n).I i,
    fun i => limUnder atTop fun n => (f n).i i, fun i => limUnder atTop fun n => (f n).u i,
    fun i => limUnder atTop fun n => (f n).d i⟩, fun n => ⟨fun i hi => z (fun n => (S n).j i hi) n,
    fun k hk j hj => z (fun n => (S n).I k hk j hj) n, fun k hk j hj => z (fun n => (S n).i k hk j hj) n,
    fun k hk => z (fun n => (S n).u k hk) n, fun k hk => z (fun n => (S n).d k hk) n⟩⟩

theorem nonneg_of_near {f : ℕ → Conc ℝ} {e : ℕ → ℝ} (he : Tendsto e atTop (𝓝 0)) (C : ∀ n, AllGe w 0 (f n))
    (S : ∀ n, NearOn w (e n) (f n) c) : AllGe w 0 c := by
  have z : ∀ {x : ℕ → ℝ} {l : ℝ}, (∀ n, 0 ≤ x n) → (∀ n, |x n - l| ≤ e n) → 0 ≤ l := by
    intro x l h0 h
    have : ∀ n, -l ≤ e n := fun n => by have := (abs_le.mp (h n)).2; have := h0 n; linarith
    have := ge_of_tendsto' he this
    linarith
  exact ⟨fun i hi => z (fun n => (C n).j i hi) fun n => (S n).j i hi,
    fun k hk j hj => z (fun n => (C n).I k hk j hj) fun n => (S n).I k hk j hj,
    fun k hk j hj => z (fun n => (C n).i k hk j hj) fun n => (S n).i k hk j hj,
    fun k hk => z (fun n => (C n).u k hk) fun n => (S n).u k hk,
    fun k hk => z (fun n => (C n).d k hk) fun n => (S n).d k hk⟩

/-! ### C175 -/

/-- **C175 (existence).** In water with bounded residence times, with given boundary values and non-negative inputs,
there is a steady distribution of concentrations, and it is non-negative. -/
theorem C175_exists (W : Wired w) (hF : 0 < F) (P : Physical w p y inp) (B : WaterBalance w y inp)
    (hb : inp.c_bc.isSome = true) (In : InGe w 0 inp (Conc.const 0)) (E : Residence w p y inp F a r) :
    ∃ c, AllGe w 0 c ∧ SteadyConc w p y inp c := by
  have In' : ∀ c, InGe w 0 inp c := fun c => by
    obtain ⟨b, hb⟩ := Option.isSome_iff_exists.mp hb
    refine ⟨fun i hi h => ?_, In.j, In.I⟩
    have := In.bc i hi h
    rw [hb] at this ⊢
    exact this
  choose g g0 gT using fun c : { c : Conc ℝ // AllGe w 0 c } => transport_next W P B (In' c.1) c.2
  let f : ℕ → { c : Conc ℝ // AllGe w 0 c } := fun n =>
    Nat.rec ⟨Conc.const 0, ⟨by simp [Conc.const], by simp [Conc.const], by simp [Conc.const], by simp [Conc.const],
      by simp [Conc.const]⟩⟩ (fun _ c => ⟨g c, g0 c⟩) n
  have fT : ∀ n, Transport w p y inp (f n).1 (f (n + 1)).1 := fun n => gT (f n)
  have hτ := P.dt
  obtain ⟨δ, hδ, near⟩ := exists_near w (f 0).1 (f 1).1
  have hκ : 0 ≤ δ / y.dt := by positivity
  have hq0 : 0 ≤ F / (F + y.dt) := by positivity
  have hq1 : F / (F + y.dt) < 1 := (div_lt_one (by linarith)).mpr (by linarith)
  have inc : ∀ n, Within w (δ / y.dt * (F / (F + y.dt)) ^ n) 0 a (f (n + 1)).1 (f (n + 2)).1 := by
    intro n
    induction n with
    | zero =>
      rw [pow_zero, mul_one]
      exact forget_transport W hκ P B hb E (within_start hτ hδ E.nonneg near) (fT 0) (fT 1)
    | succ n ih =>
      have h0 : 0 ≤ δ / y.dt * (F / (F + y.dt)) ^ n := by positivity
      rw [pow_succ, ← mul_assoc]
      exact forget_transport W (by positivity) P B hb E (within_next hF hτ h0 E.nonneg E.bound ih) (fT (n + 1)) (fT (n + 2))
  obtain ⟨l, hl⟩ := near_limit (w := w) (f := fun n => (f (n + 1)).1) (D := δ / y.dt * F) hq1 fun n => by
    refine nearOn_le (near_of_within (by positivity) E.bound (inc n)) (le_of_eq ?_)
    ring
  have he : Tendsto (fun n => δ / y.dt * F * (F / (F + y.dt)) ^ n / (1 - F / (F + y.dt))) atTop (𝓝 0) := by
    have := ((tendsto_pow_atTop_nhds_zero_of_lt_one hq0 hq1).const_mul (δ / y.dt * F)).div_const (1 - F / (F + y.dt))
    rwa [mul_zero, zero_div] at this
  have l0 : AllGe w 0 l := nonneg_of_near he (fun n => (f (n + 1)).2) hl
  obtain ⟨m, m0, mT⟩ := transport_next W P B (In' l) l0
  have hnn : ∀ n, 0 ≤ δ / y.dt * F * (F / (F + y.dt)) ^ n / (1 - F / (F + y.dt)) := fun n => by
    have : 0 < 1 - F / (F + y.dt) := by linarith
    positivity
  have same : SameOn w l m := by
    refine sameOn_of_near (e := fun n => δ / y.dt * F * (F / (F + y.dt)) ^ (n + 1) / (1 - F / (F + y.dt))
      + δ / y.dt * F * (F / (F + y.dt)) ^ n / (1 - F / (F + y.dt))) ?_ fun n =>
      (hl (n + 1)).symm.trans (near_transport W (hnn n) (hl n) P B (fT (n + 1)) mT)
    have := ((tendsto_add_atTop_iff_nat 1).2 he).add he
    rwa [add_zero] at this
  exact ⟨m, m0, steady_of_transport B hτ.ne' hb (transport_from mT same)⟩

/-- **C175 (uniqueness).** -/
theorem C175_unique (W : Wired w) (hF : 0 < F) (P : Physical w p y inp) (B : WaterBalance w y inp)
    (hb : inp.c_bc.isSome = true) (E : Residence w p y inp F a r) (S1 : SteadyConc w p y inp c1)
    (S2 : SteadyConc w p y inp c2) : SameOn w c1 c2 := by
  have hτ := P.dt
  have T1 := transport_of_steady B hτ.ne' S1
  have T2 := transport_of_steady B hτ.ne' S2
  obtain ⟨δ, hδ, near⟩ := exists_near w c1 c2
  have hκ : 0 ≤ δ / y.dt := by positivity
  have hq0 : 0 ≤ F / (F + y.dt) := by positivity
  have hq1 : F / (F + y.dt) < 1 := (div_lt_one (by linarith)).mpr (by linarith)
  have inc : ∀ n, Within w (δ / y.dt * (F / (F + y.dt)) ^ n) 0 a c1 c2 := by
    intro n
    induction n with
    | zero =>
      rw [pow_zero, mul_one]
      exact forget_transport W hκ P B hb E (within_start hτ hδ E.nonneg near) T1 T2
    | succ n ih =>
      have h0 : 0 ≤ δ / y.dt * (F / (F + y.dt)) ^ n := by positivity
      rw [pow_succ, ← mul_assoc]
      exact forget_transport W (by positivity) P B hb E (within_next hF hτ h0 E.nonneg E.bound ih) T1 T2
  have he : Tendsto (fun n => δ / y.dt * (F / (F + y.dt)) ^ n * F) atTop (𝓝 0) := by
    have := ((tendsto_pow_atTop_nhds_zero_of_lt_one hq0 hq1).const_mul (δ / y.dt)).mul_const F
    rwa [mul_zero, zero_mul] at this
  exact sameOn_of_near he fun n => near_of_within (by positivity) E.bound (inc n)

theorem rates_other {y' : Hydro ℝ} {c c' : Conc ℝ} (h : y' = { y with
      dt := y'.dt, A_prev := y'.A_prev, h_prev := y'.h_prev, A_u_prev := y'.A_u_prev,
      A_d_prev := y'.A_d_prev, V_prev := y'.V_prev }) (R : Rates w p y inp c c') : Rates w p y' inp c c' := by
  rw [h]
  refine ⟨fun k hk => ?_, R.fixed, R.super⟩
  have q := R.links k hk
  exact ⟨q.link, q.node, q.up, q.dn⟩

/-- What is left of a difference after the steps of one run. -/
noncomputable def left (F : ℝ) (ds : List (StepData ℝ)) : ℝ := (ds.map fun d => F / (F + d.y.dt)).prod

theorem approach (W : Wired w) (hF : 0 < F) (hb : inp.c_bc.isSome = true) (E : Residence w p y inp F a r)
    (St : SteadyConc w p y inp c) (ds : List (StepData ℝ)) (κ : ℝ) (hκ : 0 ≤ κ) (s : Conc ℝ × Work ℝ)
    (m : CleanMats w s.2.mats) (C : AllGe w 0 s.1) (K : Constant p y inp ds) (G : GoodSteps w ds s)
    (S : Within w κ 0 a s.1 c) : Within w (κ * left F ds) 0 a (runSteps w 0 none ds s).1 c := by
  induction ds generalizing s κ with
  | nil => simpa [left, runSteps] using S
  | cons d ds ih =>
    simp only [GoodSteps, runSteps] at G ⊢
    obtain ⟨kp, ki, ky⟩ := K d List.mem_cons_self
    have hτ := G.1.P.dt
    have hκ' : 0 ≤ κ * (F / (F + d.y.dt)) := by positivity
    have E' : Residence w d.p d.y d.inp F a r := by
      rw [kp, ki]; exact ⟨rates_other ky E.rates, E.fall, E.nonneg, E.bound⟩
    have St' : SteadyConc w d.p d.y d.inp c := by
      rw [kp, ki]; exact rates_other ky St
    obtain ⟨T, C'⟩ := step_exact W m C G.1
    have := ih (κ * (F / (F + d.y.dt))) hκ' _ (cleanMats_step m) C' (fun e he => K e (List.mem_cons_of_mem _ he)) G.2
      (forget_transport W hκ' G.1.P G.1.B (by rw [ki]; exact hb) E' (within_next hF hτ hκ E.nonneg E.bound S) T
        (transport_of_steady G.1.B hτ.ne' St'))
    have e : κ * left F (d :: ds) = κ * (F / (F + d.y.dt)) * left F ds := by
      simp only [left, List.map_cons, List.prod_cons]; ring
    rw [e]
    exact this

theorem left_le {τ : ℝ} (hF : 0 < F) (hτ : 0 < τ) {ds : List (StepData ℝ)} (h : ∀ d ∈ ds, τ ≤ d.y.dt) :
    0 ≤ left F ds ∧ left F ds ≤ (F / (F + τ)) ^ ds.length := by
  induction ds with
  | nil => simp [left]
  | cons d ds ih =>
    have h1 := h d List.mem_cons_self
    obtain ⟨h4, h2⟩ := ih fun e he => h e (List.mem_cons_of_mem _ he)
    have h3 : F / (F + d.y.dt) ≤ F / (F + τ) := div_le_div_of_nonneg_left hF.le (by linarith) (by linarith)
    have h5 : 0 ≤ F / (F + d.y.dt) := div_nonneg hF.le (by linarith)
    rw [List.length_cons, pow_succ, mul_comm]
    simp only [left, List.map_cons, List.prod_cons] at h2 h4 ⊢
    exact ⟨mul_nonneg h5 h4, mul_le_mul h3 h2 h4 (by positivity)⟩

/-- **C175 (convergence).** For every accuracy `ε`, smallest step size `τ` and initial distance `δ` there is a number
of steps after which every run under the constant conditions is within `ε` of the steady distribution everywhere in
the network, whatever the individual step sizes. -/
theorem C175_converges (W : Wired w) (hF : 0 < F) (hb : inp.c_bc.isSome = true) (E : Residence w p y inp F a r)
    (St : SteadyConc w p y inp c) {δ τ ε : ℝ} (hδ : 0 ≤ δ) (hτ : 0 < τ) (hε : 0 < ε) :
    ∃ n, ∀ (ds : List (StepData ℝ)) (s : Conc ℝ × Work ℝ), n ≤ ds.length → (∀ d ∈ ds, τ ≤ d.y.dt) →
      Constant p y inp ds → CleanMats w s.2.mats → AllGe w 0 s.1 → GoodSteps w ds s → NearOn w δ s.1 c →
      NearOn w ε (runSteps w 0 none ds s).1 c := by
  have hq0 : 0 ≤ F / (F + τ) := by positivity
  have hq1 : F / (F + τ) < 1 := (div_lt_one (by linarith)).mpr (by linarith)
  have hc : 0 < δ / τ * F + 1 := by positivity
  obtain ⟨n, hn⟩ := exists_pow_lt_of_lt_one (div_pos hε hc) hq1
  refine ⟨n + 1, fun ds s hl hd K m C G S => ?_⟩
  cases ds with
  | nil => simp at hl
  | cons d ds =>
    have hd0 := hd d List.mem_cons_self
    simp only [GoodSteps, runSteps] at G ⊢
    obtain ⟨kp, ki, ky⟩ := K d List.mem_cons_self
    have hdt := G.1.P.dt
    have hκ : 0 ≤ δ / d.y.dt := by positivity
    have E' : Residence w d.p d.y d.inp F a r := by
      rw [kp, ki]; exact ⟨rates_other ky E.rates, E.fall, E.nonneg, E.bound⟩
    have St' : SteadyConc w d.p d.y d.inp c := by
      rw [kp, ki]; exact rates_other ky St
    obtain ⟨T, C'⟩ := step_exact W m C G.1
    have N := approach W hF hb E St ds _ hκ _ (cleanMats_step m) C' (fun e he => K e (List.mem_cons_of_mem _ he)) G.2
      (forget_transport W hκ G.1.P G.1.B (by rw [ki]; exact hb) E' (within_start hdt hδ E.nonneg S) T
        (transport_of_steady G.1.B hdt.ne' St'))
    obtain ⟨l0, l1⟩ := left_le hF hτ fun e he => hd e (List.mem_cons_of_mem d he)
    have h2 : (F / (F + τ)) ^ ds.length ≤ (F / (F + τ)) ^ n :=
      pow_le_pow_of_le_one hq0 hq1.le (by simpa using hl)
    have h3 : δ / d.y.dt ≤ δ / τ := div_le_div_of_nonneg_left hδ hτ hd0
    refine nearOn_le (near_of_within (mul_nonneg hκ l0) E.bound N) ?_
    have e2 : δ / d.y.dt * left F ds ≤ δ / τ * (ε / (δ / τ * F + 1)) :=
      mul_le_mul h3 (l1.trans (h2.trans hn.le)) l0 (by positivity)
    have e3 : δ / τ * (ε / (δ / τ * F + 1)) * F = ε * (δ / τ * F) / (δ / τ * F + 1) := by ring
    refine (mul_le_mul_of_nonneg_right e2 hF.le).trans (e3.trans_le ?_)
    rw [div_le_iff₀ hc]
    nlinarith

end

/-! ### A concrete case: the network of `Tank` -/

namespace Tank

theorem inGe (v : ℝ) : InGe w 0 inp (Conc.const v) :=
  ⟨by simp [inp], fun i hi hb => by have := (physical one_pos).Q0j i hi hb; simpa [inp] using this, by simp [inp]⟩

example : ∃ c, AllGe w 0 c ∧ SteadyConc w p (y 1) inp c ∧ c.j 2 = 0 := by
  obtain ⟨c, h0, h⟩ := C175_exists wired (by norm_num) (physical one_pos) (balance 1) rfl (inGe 0) residence
  refine ⟨c, h0, h, ?_⟩
  have := h.super 2 (by decide) (by decide)
  rw [RateEq, (superQ_eq 1).2] at this
  simpa [superNet, ctrlNet, w, Ex.w, y, p, inp, Conc.const] using this

end Tank

end Pipedream.Quality
