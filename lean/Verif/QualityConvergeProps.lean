import Verif.QualityStableProps
import Mathlib.Analysis.Calculus.Deriv.MeanValue
import Mathlib.Analysis.SpecialFunctions.ExpDeriv

/-!
# Water-quality runs converge to the transport equations in time (C171)

The exact concentrations obey the balance of every control volume at every moment, with the flows and volumes of the
moment. The step of nquality.py is compared with them; default limits `c_min = 0`, `c_max = np.inf`
(nquality.py 98, 204–205).
-/

namespace Pipedream.Quality

open Pipedream.Network Pipedream.Link Pipedream.Sweep

/-! ### Specification -/

/-- Rate of change of the contaminant in a volume `V` which gains the water `G` per time: what is stored, what reacts
and what leaves make up the source. `c'` is the rate of change of the concentration. -/
def RateEq (V G Kr c c' net src : ℝ) : Prop := V * c' + G * c + Kr * V * c + net = src

/-- The transport equations in time, of superlink `k`. -/
structure LinkRates (w : Wiring) (p : Params ℝ) (y : Hydro ℝ) (inp : Inputs ℝ) (c c' : Conc ℝ) (k : ℕ) : Prop where
  link : ∀ j, j < w.ix.nk k → RateEq (y.dx (w.ix.i_1k k + j) * y.A (w.ix.i_1k k + j))
    (y.Q_up (w.ix.i_1k k + j) - y.Q_dn (w.ix.i_1k k + j)) (p.Kr (w.ix.i_1k k + j))
    (c.i (w.ix.i_1k k + j)) (c'.i (w.ix.i_1k k + j))
    (linkFluxDn p y (w.ix.i_1k k + j) (c.i (w.ix.i_1k k + j)) (c.I (w.ix.I_1k k + (j + 1)))
      - linkFluxUp p y (w.ix.i_1k k + j) (c.I (w.ix.I_1k k + j)) (c.i (w.ix.i_1k k + j))) 0
  node : ∀ j, j ≤ w.ix.nk k → RateEq (y.A_S (w.ix.I_1k k + j) * y.h (w.ix.I_1k k + j))
    (inp.Q_0I (w.ix.I_1k k + j) + nodeQin w y k j - nodeQout w y k j) (p.KrI (w.ix.I_1k k + j))
    (c.I (w.ix.I_1k k + j)) (c'.I (w.ix.I_1k k + j)) (nodeOut w p y c k j - nodeIn w p y c k j)
    (inp.Q_0I (w.ix.I_1k k + j) * inp.c_0I (w.ix.I_1k k + j))
  up : RateEq (y.dx_u k * y.A_u k) (y.Qu_up k - y.Qu_dn k) 0 (c.u k) (c'.u k)
    (uFluxDn p y k (c.u k) (c.I (w.ix.I_1k k + 0)) - uFluxUp p y k (c.j (w.Ju k)) (c.u k)) 0
  dn : RateEq (y.dx_d k * y.A_d k) (y.Qd_up k - y.Qd_dn k) 0 (c.d k) (c'.d k)
    (dFluxDn p y k (c.d k) (c.j (w.Jd k)) - dFluxUp p y k (c.I (w.ix.I_1k k + w.ix.nk k)) (c.d k)) 0

/-- The transport equations in time. At fixed superjunctions the concentration is the given one, or kept if none is
given. -/
structure Rates (w : Wiring) (p : Params ℝ) (y : Hydro ℝ) (inp : Inputs ℝ) (c c' : Conc ℝ) : Prop where
  links : ∀ k, k < w.ix.NK → LinkRates w p y inp c c' k
  fixed : ∀ i, i < w.M → w.bc i = true →
    (inp.c_bc = none ∧ c'.j i = 0) ∨ ∃ b, inp.c_bc = some b ∧ c.j i = b i
  super : ∀ i, i < w.M → w.bc i = false →
    RateEq (y.V i) (inp.Q_0j i - superQ w y i) (p.Krj i) (c.j i) (c'.j i) (superNet w p y c i)
      (inp.Q_0j i * inp.c_0j i)

/-- `f'` is the derivative of `f` from time 0 on and changes by at most `B` per time. -/
structure Smooth (B : ℝ) (f f' : ℝ → ℝ) : Prop where
  deriv : ∀ t, 0 ≤ t → HasDerivAt f (f' t) t
  lip : ∀ s t, 0 ≤ s → s ≤ t → |f' s - f' t| ≤ B * (t - s)

/-- … for every concentration of the network. -/
structure SmoothOn (w : Wiring) (B : ℝ) (c c' : ℝ → Conc ℝ) : Prop where
  j : ∀ i, i < w.M → Smooth B (fun t => (c t).j i) fun t => (c' t).j i
  I : ∀ k, k < w.ix.NK → ∀ j, j ≤ w.ix.nk k →
    Smooth B (fun t => (c t).I (w.ix.I_1k k + j)) fun t => (c' t).I (w.ix.I_1k k + j)
  i : ∀ k, k < w.ix.NK → ∀ j, j < w.ix.nk k →
    Smooth B (fun t => (c t).i (w.ix.i_1k k + j)) fun t => (c' t).i (w.ix.i_1k k + j)
  u : ∀ k, k < w.ix.NK → Smooth B (fun t => (c t).u k) fun t => (c' t).u k
  d : ∀ k, k < w.ix.NK → Smooth B (fun t => (c t).d k) fun t => (c' t).d k

/-- The steps take the reaction and dispersion, the water and the inputs of the moment at which they end. The step
size and the water at the beginning of the step are those of the step. -/
def Follows (p : ℝ → Params ℝ) (y : ℝ → Hydro ℝ) (inp : ℝ → Inputs ℝ) : List (StepData ℝ) → ℝ → Prop
  | [], _ => True
  | d :: ds, t => d.p = p (t + d.y.dt) ∧ d.inp = inp (t + d.y.dt) ∧
      d.y = { y (t + d.y.dt) with
        dt := d.y.dt, A_prev := d.y.A_prev, h_prev := d.y.h_prev, A_u_prev := d.y.A_u_prev,
        A_d_prev := d.y.A_d_prev, V_prev := d.y.V_prev } ∧
      Follows p y inp ds (t + d.y.dt)

/-- Time covered by the steps. -/
def span (ds : List (StepData ℝ)) : ℝ := (ds.map fun d => d.y.dt).sum

/-- Sum of the squares of the step sizes. -/
def squares (ds : List (StepData ℝ)) : ℝ := (ds.map fun d => d.y.dt ^ 2).sum

/-! ### Helpers -/

section

variable {w : Wiring} {p : Params ℝ} {y : Hydro ℝ} {inp : Inputs ℝ} {c c' : Conc ℝ}

theorem cell_of_rate {dt V V_prev G Kr c c' net src : ℝ} (hdt : dt ≠ 0) (hG : (V - V_prev) / dt = G)
    (h : RateEq V G Kr c c' net src) : CellEq dt V V_prev Kr (1 * c + -dt * c') c net src := by
  unfold RateEq at h
  unfold CellEq
  rw [← hG] at h
  field_simp at h ⊢
  linear_combination h

/-- The exact concentrations solve the equations of the step for slightly different old concentrations. -/
theorem transport_of_rates (B : WaterBalance w y inp) (hdt : y.dt ≠ 0) (R : Rates w p y inp c c') :
    Transport w p y inp (c.comb 1 (-y.dt) c') c := by
  refine ⟨fun k hk => ⟨fun j hj => ?_, fun j hj => ?_, ?_, ?_⟩, fun i hi hb => ?_, fun i hi hb => ?_⟩
  · refine cell_of_rate hdt ?_ ((R.links k hk).link j hj)
    have := B.link k hk j hj
    rw [← mul_sub]; linarith
  · refine cell_of_rate hdt ?_ ((R.links k hk).node j hj)
    have := B.node k hk j hj
    rw [← mul_sub]; linarith
  · refine cell_of_rate hdt ?_ (R.links k hk).up
    have := B.up k hk
    rw [← mul_sub]; linarith
  · refine cell_of_rate hdt ?_ (R.links k hk).dn
    have := B.dn k hk
    rw [← mul_sub]; linarith
  · rcases R.fixed i hi hb with ⟨h1, h2⟩ | ⟨b, h1, h2⟩
    · rw [h1]; simp [Conc.comb, h2]
    · rw [h1, h2]; rfl
  · refine cell_of_rate hdt ?_ (R.super i hi hb)
    have := B.super i hi hb
    linarith

theorem smooth_step {B : ℝ} {f f' : ℝ → ℝ} (S : Smooth B f f') {t τ : ℝ} (ht : 0 ≤ t) (hτ : 0 < τ) :
    |f t - (1 * f (t + τ) + -τ * f' (t + τ))| ≤ B * τ ^ 2 := by
  obtain ⟨ξ, ⟨h1, h2⟩, e⟩ := exists_hasDerivAt_eq_slope f f' (show t < t + τ by linarith)
    (fun x hx => (S.deriv x (ht.trans hx.1)).continuousAt.continuousWithinAt)
    (fun x hx => S.deriv x (ht.trans hx.1.le))
  rw [add_sub_cancel_left, eq_div_iff hτ.ne'] at e
  have L := S.lip ξ (t + τ) (ht.trans h1.le) h2.le
  have e2 : f t - (1 * f (t + τ) + -τ * f' (t + τ)) = -(τ * (f' ξ - f' (t + τ))) := by linear_combination e
  rw [e2, abs_neg, abs_mul, abs_of_pos hτ, pow_two, ← mul_assoc, mul_comm τ]
  refine mul_le_mul_of_nonneg_right (L.trans ?_) hτ.le
  have hB : 0 ≤ B := by
    have := (abs_nonneg _).trans (S.lip t (t + τ) ht (by linarith))
    rw [add_sub_cancel_left] at this
    exact nonneg_of_mul_nonneg_left this hτ
  exact mul_le_mul_of_nonneg_left (by linarith) hB

theorem NearOn.trans {K : Type*} [Field K] [LinearOrder K] [IsStrictOrderedRing K] {δ ε : K} {c1 c2 c3 : Conc K}
    (S : NearOn w δ c1 c2) (T : NearOn w ε c2 c3) : NearOn w (δ + ε) c1 c3 := by
  have e : ∀ {a b c : K}, |a - b| ≤ δ → |b - c| ≤ ε → |a - c| ≤ δ + ε := fun h h' =>
    (abs_sub_le _ _ _).trans (add_le_add h h')
  exact ⟨fun i hi => e (S.j i hi) (T.j i hi), fun k hk j hj => e (S.I k hk j hj) (T.I k hk j hj),
    fun k hk j hj => e (S.i k hk j hj) (T.i k hk j hj), fun k hk => e (S.u k hk) (T.u k hk),
    fun k hk => e (S.d k hk) (T.d k hk)⟩

theorem nearStep_self {δ : ℝ} (h0 : 0 ≤ δ) (d : StepData ℝ) : NearStep w δ d d := by
  refine ⟨rfl, rfl, rfl, rfl, by simp [h0], by simp [h0], ?_⟩
  cases hb : d.inp.c_bc with
  | none => exact .inl ⟨rfl, rfl⟩
  | some b => exact .inr ⟨b, b, rfl, rfl, by simp [h0]⟩

/-- Equal inputs: new concentrations are as close as the old ones. -/
theorem near_transport (W : Wired w) {δ : ℝ} (h0 : 0 ≤ δ) {c1 c2 n1 n2 : Conc ℝ} (S : NearOn w δ c1 c2)
    (P : Physical w p y inp) (B : WaterBalance w y inp) (T1 : Transport w p y inp c1 n1)
    (T2 : Transport w p y inp c2 n2) : NearOn w δ n1 n2 := by
  have M := nearStep_self (w := w) h0 ⟨p, y, inp, fun _ => 0⟩
  have A := near_lower W h0 S M P B T1 T2
  have D := near_lower W h0 S.symm M P B T2 T1
  have e : ∀ {a b : ℝ}, -δ ≤ -1 * a + 1 * b → -δ ≤ -1 * b + 1 * a → |a - b| ≤ δ := fun h h' =>
    abs_le.mpr ⟨by linarith, by linarith⟩
  exact ⟨fun i hi => e (A.j i hi) (D.j i hi), fun k hk j hj => e (A.I k hk j hj) (D.I k hk j hj),
    fun k hk j hj => e (A.i k hk j hj) (D.i k hk j hj), fun k hk => e (A.u k hk) (D.u k hk),
    fun k hk => e (A.d k hk) (D.d k hk)⟩

end

/-! ### C171 -/

section

variable {w : Wiring} {p : ℝ → Params ℝ} {y : ℝ → Hydro ℝ} {inp : ℝ → Inputs ℝ} {c c' : ℝ → Conc ℝ} {B δ : ℝ}

/-- **C171 (error of a run).** A run which starts within `δ` of the exact concentrations is at the end within
`δ + B · Σ dt²` of them, where `B` bounds how fast the rates of change vary. -/
theorem C171_error (W : Wired w) (hB : 0 ≤ B) (E : ∀ t, 0 ≤ t → Rates w (p t) (y t) (inp t) (c t) (c' t))
    (S : SmoothOn w B c c') (ds : List (StepData ℝ)) (t : ℝ) (ht : 0 ≤ t) (h0 : 0 ≤ δ) (s : Conc ℝ × Work ℝ)
    (m : CleanMats w s.2.mats) (C : AllGe w 0 s.1) (F : Follows p y inp ds t) (G : GoodSteps w ds s)
    (N : NearOn w δ s.1 (c t)) :
    NearOn w (δ + B * squares ds) (runSteps w 0 none ds s).1 (c (t + span ds)) := by
  induction ds generalizing t s δ with
  | nil => simpa [squares, span, runSteps] using N
  | cons d ds ih =>
    obtain ⟨fp, fi, fy, F'⟩ := F
    obtain ⟨g, G'⟩ := G
    obtain ⟨T, C'⟩ := step_exact W m C g
    have hτ : 0 < d.y.dt := g.P.dt
    have R : Rates w d.p d.y d.inp (c (t + d.y.dt)) (c' (t + d.y.dt)) := by
      have := E (t + d.y.dt) (by linarith)
      rw [fy, fp, fi]
      refine ⟨fun k hk => ?_, this.fixed, this.super⟩
      have q := this.links k hk
      exact ⟨q.link, q.node, q.up, q.dn⟩
    have T2 := transport_of_rates g.B hτ.ne' R
    have near : NearOn w (B * d.y.dt ^ 2) (c t) ((c (t + d.y.dt)).comb 1 (-d.y.dt) (c' (t + d.y.dt))) :=
      ⟨fun i hi => smooth_step (S.j i hi) ht hτ, fun k hk j hj => smooth_step (S.I k hk j hj) ht hτ,
        fun k hk j hj => smooth_step (S.i k hk j hj) ht hτ, fun k hk => smooth_step (S.u k hk) ht hτ,
        fun k hk => smooth_step (S.d k hk) ht hτ⟩
    have hq : 0 ≤ B * d.y.dt ^ 2 := by positivity
    have N' := near_transport W (add_nonneg h0 hq) (N.trans near) g.P g.B T T2
    have := ih (t + d.y.dt) (by linarith) (add_nonneg h0 hq) _ (cleanMats_step m) C' F' G' N'
    have e1 : δ + B * squares (d :: ds) = δ + B * d.y.dt ^ 2 + B * squares ds := by
      simp only [squares, List.map_cons, List.sum_cons]; ring
    have e2 : t + span (d :: ds) = t + d.y.dt + span ds := by
      simp only [span, List.map_cons, List.sum_cons]; ring
    rw [e1, e2]
    exact this

theorem squares_le {ds : List (StepData ℝ)} {τ : ℝ} (h : ∀ d ∈ ds, 0 ≤ d.y.dt ∧ d.y.dt ≤ τ) :
    squares ds ≤ τ * span ds := by
  induction ds with
  | nil => simp [squares, span]
  | cons d ds ih =>
    simp only [squares, span, List.map_cons, List.sum_cons] at ih ⊢
    have h1 := h d List.mem_cons_self
    have h2 := ih fun e he => h e (List.mem_cons_of_mem _ he)
    nlinarith [mul_le_mul_of_nonneg_right h1.2 h1.1]

theorem good_dt {ds : List (StepData ℝ)} {s : Conc ℝ × Work ℝ} (G : GoodSteps w ds s) : ∀ d ∈ ds, 0 < d.y.dt := by
  induction ds generalizing s with
  | nil => simp
  | cons d ds ih =>
    intro e he
    rcases List.mem_cons.mp he with rfl | h
    · exact G.1.P.dt
    · exact ih G.2 e h

/-- **C171.** Convergence: for every accuracy `ε` and duration `T` there is a step size such that every run from the
exact concentrations over at most that duration, with steps no longer than it, ends within `ε` of the exact
concentrations everywhere in the network. The step size is the same for all runs. -/
theorem C171_converges (W : Wired w) (hB : 0 ≤ B) (E : ∀ t, 0 ≤ t → Rates w (p t) (y t) (inp t) (c t) (c' t))
    (S : SmoothOn w B c c') {ε T : ℝ} (hε : 0 < ε) (hT : 0 ≤ T) :
    ∃ τ > 0, ∀ (ds : List (StepData ℝ)) (s : Conc ℝ × Work ℝ), CleanMats w s.2.mats → AllGe w 0 s.1 →
      NearOn w 0 s.1 (c 0) → Follows p y inp ds 0 → GoodSteps w ds s → (∀ d ∈ ds, d.y.dt ≤ τ) → span ds ≤ T →
      NearOn w ε (runSteps w 0 none ds s).1 (c (span ds)) := by
  have hBT : 0 < B * T + 1 := by positivity
  refine ⟨ε / (B * T + 1), by positivity, fun ds s m C N F G hd hs => ?_⟩
  have h := C171_error W hB E S ds 0 le_rfl le_rfl s m C F G N
  rw [zero_add, zero_add] at h
  have q := squares_le (ds := ds) fun d hd' => ⟨(good_dt G d hd').le, hd d hd'⟩
  have b : B * squares ds ≤ ε := by
    have h1 : B * squares ds ≤ B * (ε / (B * T + 1) * T) :=
      mul_le_mul_of_nonneg_left (q.trans (mul_le_mul_of_nonneg_left hs (by positivity))) hB
    have h2 : B * (ε / (B * T + 1) * T) = ε * (B * T) / (B * T + 1) := by ring
    refine h1.trans (h2.trans_le ?_)
    rw [div_le_iff₀ hBT]
    nlinarith
  exact ⟨fun i hi => (h.j i hi).trans b, fun k hk j hj => (h.I k hk j hj).trans b,
    fun k hk j hj => (h.i k hk j hj).trans b, fun k hk => (h.u k hk).trans b, fun k hk => (h.d k hk).trans b⟩

end

/-! ### A concrete case

The pipe of `Ex` with everything at 1, and beside it a closed tank whose concentration decays by a tenth per second. -/

namespace Tank

def w : Wiring := { Ex.w with M := 3 }

noncomputable def p : Params ℝ := ⟨fun _ => 1, fun _ => 0, fun _ => 0, fun i => if i = 2 then 1 / 10 else 0, fun _ => 1, fun _ => 1⟩

def y (dt : ℝ) : Hydro ℝ where
  dt := dt
  Q_up _ := 1
  Q_dn _ := 1
  A _ := 2
  A_prev _ := 2
  dx _ := 100
  A_S _ := 1
  h _ := 1
  h_prev _ := 1
  Qu_up _ := 1
  Qu_dn _ := 1
  A_u _ := 2
  A_u_prev _ := 2
  dx_u _ := 1
  Qd_up _ := 1
  Qd_dn _ := 1
  A_d _ := 2
  A_d_prev _ := 2
  dx_d _ := 1
  V _ := 20
  V_prev _ := 20
  Qo _ := 1
  Qw _ := 0
  Qp _ := 0

def inp : Inputs ℝ := ⟨some fun _ => 1, fun _ => 1, fun i => if i = 2 then 0 else 2, fun _ => 0, fun _ => 0⟩

def wk : Work ℝ :=
  ⟨⟨fun _ _ => 0, fun _ _ => 0, fun _ _ => 0, fun _ _ => 0⟩,
    ⟨fun _ => 0, fun _ => 0, fun _ => 0, fun _ => 0⟩, ⟨fun _ => 0, fun _ => 0, fun _ => 0, fun _ => 0⟩⟩

noncomputable def c (t : ℝ) : Conc ℝ :=
  { Conc.const 1 with j := fun i => if i = 2 then Real.exp (-(t / 10)) else 1 }

noncomputable def c' (t : ℝ) : Conc ℝ :=
  { Conc.const 0 with j := fun i => if i = 2 then -(Real.exp (-(t / 10)) / 10) else 0 }

theorem wired : Wired w := by
  refine ⟨⟨fun _ _ => by simp [w, Ex.w], ?_, ?_⟩, fun k hk => ⟨?_, ?_, ?_, ?_, ?_⟩, ?_, ?_, ?_, ?_, ?_, ?_, ?_, ?_⟩ <;>
    simp [w, Ex.w] at * <;> omega

theorem cases3 {i : ℕ} (hi : i < w.M) (hb : w.bc i = false) : i = 0 ∨ i = 2 := by
  have hi : i < 3 := hi
  by_contra h
  obtain rfl : i = 1 := by omega
  simp [w, Ex.w] at hb

theorem physical {dt : ℝ} (h : 0 < dt) : Physical w p (y dt) inp := by
  refine ⟨h, ?_, ?_, ?_, ?_, ?_, ?_, ?_, ?_, ?_, ?_, ?_, ?_, ?_, ?_, ?_, ?_⟩ <;> simp [p, y, inp]
  · intro i _ _; split_ifs <;> norm_num
  · intro i _ _; split_ifs <;> norm_num

theorem superQ_eq (dt : ℝ) : superQ w (y dt) 0 = 2 ∧ superQ w (y dt) 2 = 0 := by
  constructor <;> simp [superQ, ctrlQ, w, Ex.w, y]
  norm_num

theorem balance (dt : ℝ) : WaterBalance w (y dt) inp := by
  refine ⟨fun _ _ _ _ => by simp [y], fun k _ j _ => ?_, fun _ _ => by simp [y], fun _ _ => by simp [y], fun i hi hb => ?_⟩
  · simp only [nodeQout, nodeQin, y, inp]
    split_ifs <;> norm_num
  · rcases cases3 hi hb with rfl | rfl
    · rw [(superQ_eq dt).1]; simp [y, inp]
    · rw [(superQ_eq dt).2]; simp [y, inp]

theorem rates (t : ℝ) : Rates w p (y 1) inp (c t) (c' t) := by
  refine ⟨fun k hk => ⟨fun j hj => ?_, fun j hj => ?_, ?_, ?_⟩, fun i hi hb => .inr ⟨_, rfl, ?_⟩, fun i hi hb => ?_⟩
  · simp [RateEq, linkFluxDn, linkFluxUp, flux, upwind, c, c', Conc.const, y, p]
  · simp only [RateEq, nodeOut, nodeIn, nodeQin, nodeQout, dFluxUp, uFluxDn, linkFluxUp, linkFluxDn, flux, upwind]
    split_ifs <;> simp [c, c', Conc.const, y, p, inp]
  · simp [RateEq, uFluxDn, uFluxUp, flux, upwind, c, c', Conc.const, y, p, w, Ex.w]
  · simp [RateEq, dFluxDn, dFluxUp, flux, upwind, c, c', Conc.const, y, p, w, Ex.w]
  · have : i ≠ 2 := by rintro rfl; simp [w, Ex.w] at hb
    simp [c, this]
  · rcases cases3 hi hb with rfl | rfl
    · rw [RateEq, (superQ_eq 1).1]
      simp [superNet, ctrlNet, uFluxUp, flux, upwind, c, c', Conc.const, w, Ex.w, y, p, inp]
      norm_num
    · rw [RateEq, (superQ_eq 1).2]
      simp [superNet, ctrlNet, c, c', Conc.const, w, Ex.w, y, p, inp]
      ring

theorem smooth : SmoothOn w 1 c c' := by
  have k0 : ∀ v : ℝ, Smooth 1 (fun _ => v) fun _ => 0 := fun v =>
    ⟨fun t _ => hasDerivAt_const t v, fun s t _ h => by simpa using h⟩
  refine ⟨fun i hi => ?_, fun _ _ _ _ => k0 1, fun _ _ _ _ => k0 1, fun _ _ => k0 1, fun _ _ => k0 1⟩
  by_cases h : i = 2
  · subst h
    simp only [c, c', if_pos]
    refine ⟨fun t _ => ?_, fun s t hs hst => ?_⟩
    · have d : HasDerivAt (fun t : ℝ => -(t / 10)) (-(1 / 10)) t := ((hasDerivAt_id t).div_const 10).neg
      have := d.exp
      rwa [mul_neg, mul_one_div] at this
    · have e : Real.exp (-(t / 10)) = Real.exp (-(s / 10)) * Real.exp (-((t - s) / 10)) := by
        rw [← Real.exp_add]; congr 1; ring
      have h1 : Real.exp (-(s / 10)) ≤ 1 := Real.exp_le_one_iff.mpr (by linarith)
      have h2 : 1 - (t - s) / 10 ≤ Real.exp (-((t - s) / 10)) := by
        have := Real.add_one_le_exp (-((t - s) / 10)); linarith
      have h3 : Real.exp (-((t - s) / 10)) ≤ 1 := Real.exp_le_one_iff.mpr (by linarith)
      have h4 := Real.exp_pos (-(s / 10))
      rw [e, abs_le]
      constructor <;> nlinarith
  · simp only [c, c', if_neg h]
    exact k0 1

/-- For every accuracy there is a step size for which the step meets the exact concentrations that closely. -/
example {ε : ℝ} (hε : 0 < ε) : ∃ dt > 0, ∃ x,
    NearOn w ε (runSteps w 0 none [⟨p, y dt, inp, x⟩] (c 0, wk)).1 (c dt) := by
  obtain ⟨τ, hτ, h⟩ := C171_converges (T := 1) (p := fun _ => p) (y := fun _ => y 1) (inp := fun _ => inp) wired
    zero_le_one (fun t _ => rates t) smooth hε zero_le_one
  have hd : 0 < min τ 1 := lt_min hτ one_pos
  have m : CleanMats w wk.mats := cleanMats_zero w
  obtain ⟨x, hx⟩ := (C75_solvable (c := c 0) wired (physical hd) (balance (min τ 1)) m).1
  refine ⟨min τ 1, hd, x, ?_⟩
  have C0 : AllGe w 0 (c 0) := by
    refine ⟨fun i _ => ?_, ?_, ?_, ?_, ?_⟩ <;> simp [c, Conc.const]
  have e : span [(⟨p, y (min τ 1), inp, x⟩ : StepData ℝ)] = min τ 1 := by simp [span, y]
  have := h [⟨p, y (min τ 1), inp, x⟩] (c 0, wk) m C0 ⟨by simp, by simp, by simp, by simp, by simp⟩
    ⟨rfl, rfl, rfl, trivial⟩
    ⟨⟨physical hd, balance _, ⟨by simp [inp], fun i hi hb => by have := (physical hd).Q0j i hi hb; simpa [inp] using this,
      by simp [inp]⟩, hx⟩, trivial⟩
    (by intro d hd; rw [List.mem_singleton] at hd; subst hd; exact min_le_left _ _)
    (by rw [e]; exact min_le_right _ _)
  rwa [e] at this

end Tank

end Pipedream.Quality
