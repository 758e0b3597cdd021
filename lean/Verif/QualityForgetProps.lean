import Verif.QualityConvergeProps
import Mathlib.Analysis.SpecificLimits.Basic

/-!
# A water-quality model forgets its initial concentrations (C174)

Two runs with the same water and the same inputs from different initial concentrations, with the default limits
`c_min = 0`, `c_max = np.inf` (nquality.py 98, 204–205).
-/

namespace Pipedream.Quality

open Pipedream.Network Pipedream.Link Pipedream.Sweep

/-! ### Specification -/

/-- Clean inflow and clean boundaries. -/
def Inputs.clean (inp : Inputs ℝ) : Inputs ℝ :=
  { inp with c_bc := some fun _ => 0, c_0j := fun _ => 0, c_0I := fun _ => 0 }

/-- A field `a` of residence times of at most `F`: were it a concentration in the given water, with clean inflow, it
would fall by at least one per second everywhere. (With equality: the age of the water.) -/
structure Residence (w : Wiring) (p : Params ℝ) (y : Hydro ℝ) (inp : Inputs ℝ) (F : ℝ) (a r : Conc ℝ) : Prop where
  rates : Rates w p y inp.clean a r
  fall : AllLe w (-1) r
  nonneg : AllGe w 0 a
  bound : AllLe w F a

/-- The same step in both runs; boundary values are given, and the field is one of residence times in its water. -/
structure SameStep (w : Wiring) (F : ℝ) (a r : Conc ℝ) (d1 d2 : StepData ℝ) : Prop where
  p : d2.p = d1.p
  y : d2.y = d1.y
  inp : d2.inp = d1.inp
  bc : d1.inp.c_bc.isSome = true
  res : Residence w d1.p d1.y d1.inp F a r

/-- What is left of a difference after the steps. -/
noncomputable def remains (F : ℝ) (ds : List (StepData ℝ × StepData ℝ)) : ℝ := (ds.map fun d => F / (F + d.1.y.dt)).prod

/-! ### Helpers -/

/-- The concentrations differ by at most `κ (a + τ)`. -/
structure Within (w : Wiring) (κ τ : ℝ) (a c1 c2 : Conc ℝ) : Prop where
  j : ∀ i, i < w.M → |c1.j i - c2.j i| ≤ κ * (a.j i + τ)
  I : ∀ k, k < w.ix.NK → ∀ j, j ≤ w.ix.nk k →
    |c1.I (w.ix.I_1k k + j) - c2.I (w.ix.I_1k k + j)| ≤ κ * (a.I (w.ix.I_1k k + j) + τ)
  i : ∀ k, k < w.ix.NK → ∀ j, j < w.ix.nk k →
    |c1.i (w.ix.i_1k k + j) - c2.i (w.ix.i_1k k + j)| ≤ κ * (a.i (w.ix.i_1k k + j) + τ)
  u : ∀ k, k < w.ix.NK → |c1.u k - c2.u k| ≤ κ * (a.u k + τ)
  d : ∀ k, k < w.ix.NK → |c1.d k - c2.d k| ≤ κ * (a.d k + τ)

section

variable {w : Wiring} {p : Params ℝ} {y : Hydro ℝ} {inp : Inputs ℝ} {F κ : ℝ} {a r c1 c2 n1 n2 : Conc ℝ}

theorem Within.symm {τ : ℝ} (S : Within w κ τ a c1 c2) : Within w κ τ a c2 c1 :=
  ⟨fun i hi => by rw [abs_sub_comm]; exact S.j i hi, fun k hk j hj => by rw [abs_sub_comm]; exact S.I k hk j hj,
    fun k hk j hj => by rw [abs_sub_comm]; exact S.i k hk j hj, fun k hk => by rw [abs_sub_comm]; exact S.u k hk,
    fun k hk => by rw [abs_sub_comm]; exact S.d k hk⟩

/-- One side of the estimate, on the transport equations. -/
theorem forget_lower (W : Wired w) (hκ : 0 ≤ κ) (P : Physical w p y inp) (B : WaterBalance w y inp)
    (hb : inp.c_bc.isSome = true) (E : Residence w p y inp F a r) (S : Within w κ y.dt a c1 c2)
    (T1 : Transport w p y inp c1 n1) (T2 : Transport w p y inp c2 n2) :
    AllGe w 0 ((n1.comb (-1) 1 n2).comb 1 κ a) := by
  have Ta := transport_of_rates (balance_inp (i2 := inp.clean) B rfl rfl) P.dt.ne' E.rates
  have T := transport_comb 1 κ (i1 := inp.comb (-1) 1 inp c1 c2) (i2 := inp.clean) rfl rfl
    (transport_comb (-1) 1 rfl rfl T1 T2) Ta
  have lo : ∀ {x y' z r' : ℝ}, |x - y'| ≤ κ * (z + y.dt) → r' ≤ -1 →
      0 ≤ 1 * (-1 * x + 1 * y') + κ * (1 * z + -y.dt * r') := by
    intro x y' z r' h hr
    have h1 := (abs_le.mp h).2
    have h2 : κ * (z + y.dt) ≤ κ * (1 * z + -y.dt * r') :=
      mul_le_mul_of_nonneg_left (by nlinarith [P.dt]) hκ
    linarith
  refine transport_lower (m := 0) (inp := (inp.comb (-1) 1 inp c1 c2).comb 1 κ inp.clean (c1.comb (-1) 1 c2)
      (a.comb 1 (-y.dt) r)) (c := (c1.comb (-1) 1 c2).comb 1 κ (a.comb 1 (-y.dt) r)) W (physical_inp P rfl rfl)
    (balance_inp B rfl rfl) ⟨by simp, by simp, by simp⟩
    ⟨fun i hi => lo (S.j i hi) (E.fall.j i hi), fun k hk j hj => lo (S.I k hk j hj) (E.fall.I k hk j hj),
      fun k hk j hj => lo (S.i k hk j hj) (E.fall.i k hk j hj), fun k hk => lo (S.u k hk) (E.fall.u k hk),
      fun k hk => lo (S.d k hk) (E.fall.d k hk)⟩
    ⟨fun i hi _ => ?_, fun i hi _ => ?_, fun k hk j hj => ?_⟩ T
  · obtain ⟨b, hb⟩ := Option.isSome_iff_exists.mp hb
    simp [Inputs.comb, Inputs.clean, hb]
  · simp [Inputs.comb, Inputs.clean]
  · simp [Inputs.comb, Inputs.clean]

/-- One step on the transport equations. -/
theorem forget_transport (W : Wired w) (hκ : 0 ≤ κ) (P : Physical w p y inp) (B : WaterBalance w y inp)
    (hb : inp.c_bc.isSome = true) (E : Residence w p y inp F a r) (S : Within w κ y.dt a c1 c2)
    (T1 : Transport w p y inp c1 n1) (T2 : Transport w p y inp c2 n2) : Within w κ 0 a n1 n2 := by
  have A := forget_lower W hκ P B hb E S T1 T2
  have D := forget_lower W hκ P B hb E S.symm T2 T1
  have e : ∀ {x y' z : ℝ}, 0 ≤ 1 * (-1 * x + 1 * y') + κ * z → 0 ≤ 1 * (-1 * y' + 1 * x) + κ * z →
      |x - y'| ≤ κ * (z + 0) := fun h h' => abs_le.mpr ⟨by linarith, by linarith⟩
  exact ⟨fun i hi => e (A.j i hi) (D.j i hi), fun k hk j hj => e (A.I k hk j hj) (D.I k hk j hj),
    fun k hk j hj => e (A.i k hk j hj) (D.i k hk j hj), fun k hk => e (A.u k hk) (D.u k hk),
    fun k hk => e (A.d k hk) (D.d k hk)⟩

/-- A difference proportional to the residence times, in the units of the next step. -/
theorem within_next {τ : ℝ} (hF : 0 < F) (hτ : 0 < τ) (hκ : 0 ≤ κ) (h0 : AllGe w 0 a) (h1 : AllLe w F a)
    (S : Within w κ 0 a c1 c2) : Within w (κ * (F / (F + τ))) τ a c1 c2 := by
  have e : ∀ {x z : ℝ}, 0 ≤ z → z ≤ F → x ≤ κ * (z + 0) → x ≤ κ * (F / (F + τ)) * (z + τ) := by
    intro x z _ hz h
    refine h.trans ?_
    rw [mul_assoc]
    refine mul_le_mul_of_nonneg_left ?_ hκ
    rw [div_mul_eq_mul_div, le_div_iff₀ (by linarith)]
    nlinarith
  exact ⟨fun i hi => e (h0.j i hi) (h1.j i hi) (S.j i hi),
    fun k hk j hj => e (h0.I k hk j hj) (h1.I k hk j hj) (S.I k hk j hj),
    fun k hk j hj => e (h0.i k hk j hj) (h1.i k hk j hj) (S.i k hk j hj),
    fun k hk => e (h0.u k hk) (h1.u k hk) (S.u k hk), fun k hk => e (h0.d k hk) (h1.d k hk) (S.d k hk)⟩

theorem within_start {τ δ : ℝ} (hτ : 0 < τ) (hδ : 0 ≤ δ) (h0 : AllGe w 0 a) (S : NearOn w δ c1 c2) :
    Within w (δ / τ) τ a c1 c2 := by
  have e : ∀ {x z : ℝ}, 0 ≤ z → x ≤ δ → x ≤ δ / τ * (z + τ) := by
    intro x z hz h
    refine h.trans ?_
    rw [div_mul_eq_mul_div, le_div_iff₀ hτ]
    nlinarith
  exact ⟨fun i hi => e (h0.j i hi) (S.j i hi), fun k hk j hj => e (h0.I k hk j hj) (S.I k hk j hj),
    fun k hk j hj => e (h0.i k hk j hj) (S.i k hk j hj), fun k hk => e (h0.u k hk) (S.u k hk),
    fun k hk => e (h0.d k hk) (S.d k hk)⟩

theorem near_of_within (hκ : 0 ≤ κ) (h1 : AllLe w F a) (S : Within w κ 0 a c1 c2) : NearOn w (κ * F) c1 c2 := by
  have e : ∀ {x z : ℝ}, z ≤ F → x ≤ κ * (z + 0) → x ≤ κ * F := fun hz h =>
    h.trans (mul_le_mul_of_nonneg_left (by linarith) hκ)
  exact ⟨fun i hi => e (h1.j i hi) (S.j i hi), fun k hk j hj => e (h1.I k hk j hj) (S.I k hk j hj),
    fun k hk j hj => e (h1.i k hk j hj) (S.i k hk j hj), fun k hk => e (h1.u k hk) (S.u k hk),
    fun k hk => e (h1.d k hk) (S.d k hk)⟩

theorem forget_step {d1 d2 : StepData ℝ} {s1 s2 : Conc ℝ × Work ℝ} (W : Wired w) (hκ : 0 ≤ κ)
    (m1 : CleanMats w s1.2.mats) (m2 : CleanMats w s2.2.mats) (C1 : AllGe w 0 s1.1) (C2 : AllGe w 0 s2.1)
    (M : SameStep w F a r d1 d2) (G1 : GoodStep w d1 s1) (G2 : GoodStep w d2 s2)
    (S : Within w κ d1.y.dt a s1.1 s2.1) :
    Within w κ 0 a (advance w d1.p 0 none d1.y d1.inp s1.2 s1.1 d1.x)
      (advance w d2.p 0 none d2.y d2.inp s2.2 s2.1 d2.x) := by
  obtain ⟨T1, -⟩ := step_exact W m1 C1 G1
  obtain ⟨T2, -⟩ := step_exact W m2 C2 G2
  have T2' : Transport w d1.p d1.y d1.inp s2.1 (advance w d2.p 0 none d2.y d2.inp s2.2 s2.1 d2.x) := by
    have := T2; rw [M.p, M.y, M.inp] at this ⊢; exact this
  exact forget_transport W hκ G1.P G1.B M.bc M.res S T1 T2'

theorem forget_run (W : Wired w) (hF : 0 < F) (ds : List (StepData ℝ × StepData ℝ)) (κ : ℝ) (hκ : 0 ≤ κ)
    (s1 s2 : Conc ℝ × Work ℝ) (m1 : CleanMats w s1.2.mats) (m2 : CleanMats w s2.2.mats) (C1 : AllGe w 0 s1.1)
    (C2 : AllGe w 0 s2.1) (M : ∀ d ∈ ds, SameStep w F a r d.1 d.2) (G : GoodPairs w ds s1 s2)
    (S : Within w κ 0 a s1.1 s2.1) :
    Within w (κ * remains F ds) 0 a (runSteps w 0 none (ds.map fun d => d.1) s1).1
      (runSteps w 0 none (ds.map fun d => d.2) s2).1 := by
  induction ds generalizing s1 s2 κ with
  | nil => simpa [remains, runSteps] using S
  | cons d ds ih =>
    simp only [GoodPairs, List.map_cons, GoodSteps, runSteps] at G ⊢
    have Md := M d List.mem_cons_self
    have hτ := G.1.1.P.dt
    have hκ' : 0 ≤ κ * (F / (F + d.1.y.dt)) := by positivity
    have := ih (κ * (F / (F + d.1.y.dt))) hκ' _ _ (cleanMats_step m1) (cleanMats_step m2)
      (step_exact W m1 C1 G.1.1).2 (step_exact W m2 C2 G.2.1).2 (fun d hd => M d (List.mem_cons_of_mem _ hd))
      ⟨G.1.2, G.2.2⟩
      (forget_step W hκ' m1 m2 C1 C2 Md G.1.1 G.2.1 (within_next hF hτ hκ Md.res.nonneg Md.res.bound S))
    have e : κ * remains F (d :: ds) = κ * (F / (F + d.1.y.dt)) * remains F ds := by
      simp only [remains, List.map_cons, List.prod_cons]; ring
    rw [e]
    exact this

theorem remains_nonneg (hF : 0 < F) {ds : List (StepData ℝ × StepData ℝ)} (h : ∀ d ∈ ds, 0 < d.1.y.dt) :
    0 ≤ remains F ds := by
  refine List.prod_nonneg fun x hx => ?_
  obtain ⟨d, hd, rfl⟩ := List.mem_map.mp hx
  have := h d hd
  positivity

theorem remains_le {τ : ℝ} (hF : 0 < F) (hτ : 0 < τ) {ds : List (StepData ℝ × StepData ℝ)}
    (h : ∀ d ∈ ds, τ ≤ d.1.y.dt) : remains F ds ≤ (F / (F + τ)) ^ ds.length := by
  induction ds with
  | nil => simp [remains]
  | cons d ds ih =>
    have h1 := h d List.mem_cons_self
    have h2 := ih fun e he => h e (List.mem_cons_of_mem _ he)
    have h3 : F / (F + d.1.y.dt) ≤ F / (F + τ) := div_le_div_of_nonneg_left hF.le (by linarith) (by linarith)
    have h4 : 0 ≤ remains F ds :=
      remains_nonneg hF fun e he => hτ.trans_le (h e (List.mem_cons_of_mem _ he))
    rw [List.length_cons, pow_succ, mul_comm]
    simp only [remains, List.map_cons, List.prod_cons] at h2 h4 ⊢
    exact mul_le_mul h3 h2 h4 (by positivity)

/-! ### C174 -/

/-- **C174 (rate).** Two runs of the same steps whose initial concentrations differ by at most `δ`: after the first
step, of size `dt₀`, every further step of size `dt` shrinks the bound `δ F / dt₀` on their difference by the factor
`F / (F + dt)`, where `F` bounds the residence times. -/
theorem C174_rate (W : Wired w) (hF : 0 < F) {δ : ℝ} (hδ : 0 ≤ δ) (d : StepData ℝ × StepData ℝ)
    (ds : List (StepData ℝ × StepData ℝ)) (s1 s2 : Conc ℝ × Work ℝ) (m1 : CleanMats w s1.2.mats)
    (m2 : CleanMats w s2.2.mats) (C1 : AllGe w 0 s1.1) (C2 : AllGe w 0 s2.1)
    (M : ∀ e ∈ d :: ds, SameStep w F a r e.1 e.2) (G : GoodPairs w (d :: ds) s1 s2) (S : NearOn w δ s1.1 s2.1) :
    NearOn w (δ / d.1.y.dt * remains F ds * F) (runSteps w 0 none ((d :: ds).map fun d => d.1) s1).1
      (runSteps w 0 none ((d :: ds).map fun d => d.2) s2).1 := by
  have dts : ∀ e ∈ ds, 0 < e.1.y.dt := fun e he =>
    good_dt G.1 e.1 (List.mem_map.mpr ⟨e, List.mem_cons_of_mem _ he, rfl⟩)
  simp only [GoodPairs, List.map_cons, GoodSteps, runSteps] at G ⊢
  have Md := M d List.mem_cons_self
  have hτ := G.1.1.P.dt
  have hκ : 0 ≤ δ / d.1.y.dt := by positivity
  refine near_of_within (mul_nonneg hκ (remains_nonneg hF dts)) Md.res.bound ?_
  exact forget_run W hF ds _ hκ _ _ (cleanMats_step m1) (cleanMats_step m2) (step_exact W m1 C1 G.1.1).2
    (step_exact W m2 C2 G.2.1).2 (fun e he => M e (List.mem_cons_of_mem _ he)) ⟨G.1.2, G.2.2⟩
    (forget_step W hκ m1 m2 C1 C2 Md G.1.1 G.2.1 (within_start hτ hδ Md.res.nonneg S))

/-- **C174.** The initial concentrations are forgotten: for every accuracy `ε`, smallest step size `τ` and initial
difference `δ` there is a number of steps after which any two runs of the same steps agree to `ε` everywhere in the
network. -/
theorem C174_forgets (W : Wired w) (hF : 0 < F) {δ τ ε : ℝ} (hδ : 0 ≤ δ) (hτ : 0 < τ) (hε : 0 < ε) :
    ∃ n, ∀ (ds : List (StepData ℝ × StepData ℝ)) (s1 s2 : Conc ℝ × Work ℝ), n ≤ ds.length →
      (∀ d ∈ ds, τ ≤ d.1.y.dt) → CleanMats w s1.2.mats → CleanMats w s2.2.mats → AllGe w 0 s1.1 → AllGe w 0 s2.1 →
      (∀ d ∈ ds, SameStep w F a r d.1 d.2) → GoodPairs w ds s1 s2 → NearOn w δ s1.1 s2.1 →
      NearOn w ε (runSteps w 0 none (ds.map fun d => d.1) s1).1
        (runSteps w 0 none (ds.map fun d => d.2) s2).1 := by
  have hq0 : 0 ≤ F / (F + τ) := by positivity
  have hq1 : F / (F + τ) < 1 := (div_lt_one (by linarith)).mpr (by linarith)
  have hc : 0 < δ / τ * F + 1 := by positivity
  obtain ⟨n, hn⟩ := exists_pow_lt_of_lt_one (div_pos hε hc) hq1
  refine ⟨n + 1, fun ds s1 s2 hl hd m1 m2 C1 C2 M G S => ?_⟩
  cases ds with
  | nil => simp at hl
  | cons d ds =>
    have h := C174_rate W hF hδ d ds s1 s2 m1 m2 C1 C2 M G S
    have hd0 := hd d List.mem_cons_self
    have h1 := remains_le hF hτ fun e he => hd e (List.mem_cons_of_mem d he)
    have h2 : (F / (F + τ)) ^ ds.length ≤ (F / (F + τ)) ^ n :=
      pow_le_pow_of_le_one hq0 hq1.le (by simpa using hl)
    have h3 : δ / d.1.y.dt ≤ δ / τ := div_le_div_of_nonneg_left hδ hτ hd0
    have h0 : 0 ≤ remains F ds :=
      remains_nonneg hF fun e he => hτ.trans_le (hd e (List.mem_cons_of_mem _ he))
    have b : δ / d.1.y.dt * remains F ds * F ≤ ε := by
      have e1 : remains F ds ≤ ε / (δ / τ * F + 1) := h1.trans (h2.trans hn.le)
      have e2 : δ / d.1.y.dt * remains F ds ≤ δ / τ * (ε / (δ / τ * F + 1)) :=
        mul_le_mul h3 e1 h0 (by positivity)
      have e3 : δ / τ * (ε / (δ / τ * F + 1)) * F = ε * (δ / τ * F) / (δ / τ * F + 1) := by ring
      refine (mul_le_mul_of_nonneg_right e2 hF.le).trans (e3.trans_le ?_)
      rw [div_le_iff₀ hc]
      nlinarith
    exact ⟨fun i hi => (h.j i hi).trans b, fun k hk j hj => (h.I k hk j hj).trans b,
      fun k hk j hj => (h.i k hk j hj).trans b, fun k hk => (h.u k hk).trans b, fun k hk => (h.d k hk).trans b⟩

end

/-! ### A concrete case

The network of `Tank`: residence times of at most 610 seconds. -/

namespace Tank

def age : Conc ℝ where
  j i := if i = 0 then 23 else if i = 2 then 10 else 0
  I j := if j = 0 then 29 else if j = 1 then 334 else 227
  i j := if j = 0 then 320 else 610
  u _ := 26
  d _ := 127

noncomputable def falls : Conc ℝ where
  j i := if i = 0 then -(34 / 20) else -1
  I j := if j = 0 then -3.36 else if j = 1 then -3.52 else -1.68
  i j := if j = 0 then -(302.08 / 200) else -(302.36 / 200)
  u _ := -(3 / 2)
  d _ := -4

theorem residence {dt : ℝ} : Residence w p (y dt) inp 610 age falls := by
  have hk0 : ∀ k, k < w.ix.NK → w.ix.nk k = 2 ∧ w.ix.I_1k k = 0 ∧ w.ix.i_1k k = 0 := by
    intro k _; simp [w, Ex.w]
  refine ⟨⟨fun k hk => ⟨fun j hj => ?_, fun j hj => ?_, ?_, ?_⟩, fun i hi hb => .inr ⟨_, rfl, ?_⟩,
    fun i hi hb => ?_⟩, ⟨?_, ?_, ?_, ?_, ?_⟩, ⟨?_, ?_, ?_, ?_, ?_⟩, ⟨?_, ?_, ?_, ?_, ?_⟩⟩
  · obtain ⟨e1, e2, e3⟩ := hk0 k hk
    rw [e1] at hj
    rw [e2, e3]
    obtain rfl | rfl : j = 0 ∨ j = 1 := by omega
    all_goals norm_num [RateEq, linkFluxDn, linkFluxUp, flux, upwind, cond, age, falls, y, p]
  · obtain ⟨e1, e2, e3⟩ := hk0 k hk
    simp only [RateEq, nodeOut, nodeIn, nodeQin, nodeQout, e1, e2, e3]
    rw [e1] at hj
    obtain rfl | rfl | rfl : j = 0 ∨ j = 1 ∨ j = 2 := by omega
    all_goals norm_num [dFluxUp, uFluxDn, linkFluxUp, linkFluxDn, flux, upwind, cond, age, falls, y, p, inp, Inputs.clean]
  · norm_num [RateEq, uFluxDn, uFluxUp, flux, upwind, cond, age, falls, y, p, w, Ex.w]
  · norm_num [RateEq, dFluxDn, dFluxUp, flux, upwind, cond, age, falls, y, p, w, Ex.w]
  · have h0 : i ≠ 0 := by rintro rfl; simp [w, Ex.w] at hb
    have h2 : i ≠ 2 := by rintro rfl; simp [w, Ex.w] at hb
    simp [age, h0, h2]
  · rcases cases3 hi hb with rfl | rfl
    · rw [RateEq, (superQ_eq dt).1]
      simp [superNet, ctrlNet, uFluxUp, flux, upwind, cond, age, falls, w, Ex.w, y, p, inp, Inputs.clean]
      norm_num
    · rw [RateEq, (superQ_eq dt).2]
      simp [superNet, ctrlNet, age, falls, w, Ex.w, y, p, inp, Inputs.clean]
      norm_num
  all_goals intros; simp only [age, falls]; (try split_ifs) <;> norm_num

/-- From 0 and from 1 everywhere, one step of 6100 seconds: the difference is at most 1/10. -/
example : ∃ d1 d2 : StepData ℝ, d1.y.dt = 6100 ∧
    NearOn w (1 / 10) (runSteps w 0 none [d1] (Conc.const 1, wk)).1 (runSteps w 0 none [d2] (Conc.const 0, wk)).1 := by
  have hd : (0 : ℝ) < 6100 := by norm_num
  have m : CleanMats w wk.mats := cleanMats_zero w
  have good : ∀ v : ℝ, ∃ x, GoodStep w ⟨p, y 6100, inp, x⟩ (Conc.const v, wk) := by
    intro v
    obtain ⟨x, hx⟩ := (C75_solvable (c := Conc.const v) wired (physical hd) (balance 6100) m).1
    exact ⟨x, physical hd, balance _, ⟨by simp [inp], fun i hi hb => by
      have := (physical hd).Q0j i hi hb; simpa [inp] using this, by simp [inp]⟩, hx⟩
  obtain ⟨x1, G1⟩ := good 1
  obtain ⟨x2, G2⟩ := good 0
  refine ⟨⟨p, y 6100, inp, x1⟩, ⟨p, y 6100, inp, x2⟩, rfl, ?_⟩
  have := C174_rate (F := 610) (δ := 1) (a := age) (r := falls) wired (by norm_num) zero_le_one
    (⟨p, y 6100, inp, x1⟩, ⟨p, y 6100, inp, x2⟩) [] (Conc.const 1, wk) (Conc.const 0, wk) m m
    ⟨by simp [Conc.const], by simp [Conc.const], by simp [Conc.const], by simp [Conc.const], by simp [Conc.const]⟩
    ⟨by simp [Conc.const], by simp [Conc.const], by simp [Conc.const], by simp [Conc.const], by simp [Conc.const]⟩
    (by intro e he; rw [List.mem_singleton] at he; subst he; exact ⟨rfl, rfl, rfl, rfl, residence⟩)
    ⟨⟨G1, trivial⟩, ⟨G2, trivial⟩⟩
    ⟨by simp [Conc.const], by simp [Conc.const], by simp [Conc.const], by simp [Conc.const], by simp [Conc.const]⟩
  have e : (1 : ℝ) / (y 6100).dt * remains 610 [] * 610 = 1 / 10 := by norm_num [remains, y]
  rwa [e] at this

end Tank

end Pipedream.Quality
