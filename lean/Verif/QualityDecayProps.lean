import Verif.QualityInitProps
import Verif.QualityLinear
import Mathlib.Analysis.SpecialFunctions.Complex.LogBounds
import Mathlib.Analysis.SpecialFunctions.Exp

/-!
# C144: first-order decay

Every cell of the transport step has a reaction rate except the two end stretches of a superlink, whose rate
is the literal `0` (nquality.py 385–386, 391–392), also when the tables give the superlink a rate.
-/

namespace Pipedream.Quality

open Pipedream.Network Pipedream.Link Pipedream.Sweep

section
variable {K : Type*} [Field K] [LinearOrder K] [IsStrictOrderedRing K]
variable {w : Wiring} {p : Params K} {y : Hydro K} {inp : Inputs K} {c new : Conc K}

/-- Specification: the same substance without reaction. -/
def Params.inert (p : Params K) : Params K := { p with Kr := fun _ => 0, KrI := fun _ => 0, Krj := fun _ => 0 }

/-- Specification: old concentrations that make up for the decay of `new` in the cells that react. -/
def Conc.undecay (p : Params K) (dt : K) (c new : Conc K) : Conc K where
  j i := c.j i + p.Krj i * dt * new.j i
  I i := c.I i + p.KrI i * dt * new.I i
  i i := c.i i + p.Kr i * dt * new.i i
  u := c.u
  d := c.d

theorem cellEq_undecay {dt V V_prev Kr c_prev v net src : K} (hdt : dt ≠ 0) :
    CellEq dt V V_prev Kr (c_prev + Kr * dt * v) v net src ↔ CellEq dt V V_prev 0 c_prev v net src := by
  unfold CellEq
  have e : V * (c_prev + Kr * dt * v) / dt = V * c_prev / dt + Kr * V * v := by field_simp
  rw [e]
  constructor <;> intro h <;> linear_combination h

/-- Decay is transport of older water: the reacting equations are the inert ones with other old values. -/
theorem transport_undecay (hdt : y.dt ≠ 0) {b : ℕ → K} (hb : inp.c_bc = some b)
    (T : Transport w p.inert y inp c new) : Transport w p y inp (c.undecay p y.dt new) new := by
  refine ⟨fun k hk => ?_, fun i hi h => ?_, fun i hi h => ?_⟩
  · have t := T.links k hk
    exact ⟨fun j hj => (cellEq_undecay hdt).mpr (t.link j hj), fun j hj => (cellEq_undecay hdt).mpr (t.node j hj),
      t.up, t.dn⟩
  · have := T.fixed i hi h
    rw [hb] at this ⊢
    exact this
  · exact (cellEq_undecay hdt).mpr (T.super i hi h)

/-- Specification: rates of at most `κ`. -/
structure RatesLe (w : Wiring) (κ : K) (p : Params K) : Prop where
  j : ∀ i, i < w.M → p.Krj i ≤ κ
  I : ∀ k, k < w.ix.NK → ∀ j, j ≤ w.ix.nk k → p.KrI (w.ix.I_1k k + j) ≤ κ
  i : ∀ k, k < w.ix.NK → ∀ j, j < w.ix.nk k → p.Kr (w.ix.i_1k k + j) ≤ κ

/-- A uniform field with the old values that make up for its decay. -/
theorem uniform_undecay (hdt : y.dt ≠ 0) (B : WaterBalance w y inp) (v : K) :
    Transport w p y ⟨some fun _ => v, fun _ => v, inp.Q_0j, fun _ => v, inp.Q_0I⟩
      ((Conc.const v).undecay p y.dt (Conc.const v)) (Conc.const v) :=
  transport_undecay hdt rfl
    (C55_uniform_solves (inp := ⟨some fun _ => v, fun _ => v, inp.Q_0j, fun _ => v, inp.Q_0I⟩)
      ⟨B.link, B.node, B.up, B.dn, B.super⟩ (fun _ => rfl) (fun _ => rfl) (fun _ => rfl) (fun _ _ _ => rfl)
      (fun _ => rfl) (fun _ => rfl))

/-- **C144 (no faster than the rate).** With rates of at most `κ` no concentration falls below `v / (1 + κ dt)`
in a step, if before it was at least `v` everywhere and nothing more dilute than that flows in. -/
theorem C144_floor (W : Wired w) (P : Physical w p y inp) (B : WaterBalance w y inp) {κ v : K} (hκ : 0 ≤ κ) (hv : 0 ≤ v)
    (R : RatesLe w κ p) (C : AllGe w v c) (Ci : InGe w (v / (1 + κ * y.dt)) inp c) (T : Transport w p y inp c new) :
    AllGe w (v / (1 + κ * y.dt)) new := by
  have hdt := P.dt
  have h1 : 0 < 1 + κ * y.dt := by positivity
  obtain ⟨m, hm⟩ : ∃ m, m = v / (1 + κ * y.dt) := ⟨_, rfl⟩
  rw [← hm] at Ci ⊢
  have hvm : v = m + κ * y.dt * m := by rw [hm]; field_simp
  have hm0 : 0 ≤ m := by rw [hm]; positivity
  have le : ∀ {r : K}, r ≤ κ → m + r * y.dt * m ≤ v := by
    intro r hr
    rw [hvm]
    have := mul_le_mul_of_nonneg_right hr (mul_nonneg hdt.le hm0)
    linarith
  have T2 := uniform_undecay (p := p) hdt.ne' B m
  have D := transport_comb (i1 := inp) (i2 := ⟨some fun _ => m, fun _ => m, inp.Q_0j, fun _ => m, inp.Q_0I⟩) 1 (-1) rfl rfl T T2
  have P' : Physical w p y (inp.comb 1 (-1) ⟨some fun _ => m, fun _ => m, inp.Q_0j, fun _ => m, inp.Q_0I⟩ c
      ((Conc.const m).undecay p y.dt (Conc.const m))) := physical_inp P rfl rfl
  have B' : WaterBalance w y (inp.comb 1 (-1) ⟨some fun _ => m, fun _ => m, inp.Q_0j, fun _ => m, inp.Q_0I⟩ c
      ((Conc.const m).undecay p y.dt (Conc.const m))) := balance_inp B rfl rfl
  have := transport_lower (m := 0) W P' B'
    ⟨by simp, by simp, by simp⟩
    ⟨fun i hi => ?_, fun k hk j hj => ?_, fun k hk j hj => ?_, fun k hk => ?_, fun k hk => ?_⟩
    ⟨fun i hi hb => ?_, fun i hi hb => ?_, fun k hk j hj => ?_⟩ D
  · exact ⟨fun i hi => by have := this.j i hi; simp only [Conc.comb, Conc.const] at this; linarith,
      fun k hk j hj => by have := this.I k hk j hj; simp only [Conc.comb, Conc.const] at this; linarith,
      fun k hk j hj => by have := this.i k hk j hj; simp only [Conc.comb, Conc.const] at this; linarith,
      fun k hk => by have := this.u k hk; simp only [Conc.comb, Conc.const] at this; linarith,
      fun k hk => by have := this.d k hk; simp only [Conc.comb, Conc.const] at this; linarith⟩
  · have a := C.j i hi; have b := le (R.j i hi); simp only [Conc.comb, Conc.undecay, Conc.const]; linarith
  · have a := C.I k hk j hj; have b := le (R.I k hk j hj); simp only [Conc.comb, Conc.undecay, Conc.const]; linarith
  · have a := C.i k hk j hj; have b := le (R.i k hk j hj); simp only [Conc.comb, Conc.undecay, Conc.const]; linarith
  · have a := C.u k hk; have b := le hκ; simp only [Conc.comb, Conc.undecay, Conc.const]; linarith
  · have a := C.d k hk; have b := le hκ; simp only [Conc.comb, Conc.undecay, Conc.const]; linarith
  · have := Ci.bc i hi hb; simp only [Inputs.comb, Option.getD_some]; linarith
  · have := Ci.j i hi hb; simp only [Inputs.comb]; linarith
  · have := Ci.I k hk j hj; simp only [Inputs.comb]; linarith

/-- **C144 (end stretches do not decay).** In moving or still water of uniform concentration `v` with the same
positive rate everywhere, every end stretch ends the step with more than the `v / (1 + κ dt)` that first-order
decay leaves. -/
theorem C144_stretch_excess (W : Wired w) (P : Physical w p y inp) (B : WaterBalance w y inp) {κ v : K} (hκ : 0 < κ)
    (hv : 0 < v) (R : RatesLe w κ p) (C : AllGe w v c) (Ci : InGe w (v / (1 + κ * y.dt)) inp c)
    (T : Transport w p y inp c new) {k : ℕ} (hk : k < w.ix.NK) :
    v / (1 + κ * y.dt) < new.u k ∧ v / (1 + κ * y.dt) < new.d k := by
  have F := C144_floor W P B hκ.le hv.le R C Ci T
  have lt : v / (1 + κ * y.dt) < v := by
    have := mul_pos hκ P.dt
    exact div_lt_self hv (by linarith)
  constructor
  · refine lt_of_le_of_ne (F.u k hk) fun h => ?_
    have := up_lower W P B C hk (T.links k hk) F h.symm
    exact absurd this lt.not_ge
  · refine lt_of_le_of_ne (F.d k hk) fun h => ?_
    have := dn_lower W P B C hk (T.links k hk) F h.symm
    exact absurd this lt.not_ge

/-- **C144 (end stretches, the step itself).** The same for what the step of the code reports with the default
limits. -/
theorem C144_step_excess {wk : Work K} {x : ℕ → K} (W : Wired w) (hm : CleanMats w wk.mats) (P : Physical w p y inp)
    (B : WaterBalance w y inp) (hx : Solved w p y inp wk c x) {κ v : K} (hκ : 0 < κ) (hv : 0 < v) (R : RatesLe w κ p)
    (C : AllGe w v c) (Ci : InGe w (v / (1 + κ * y.dt)) inp c) (C0 : InGe w 0 inp c) {k : ℕ} (hk : k < w.ix.NK) :
    v / (1 + κ * y.dt) < (advance w p 0 none y inp wk c x).u k ∧
      v / (1 + κ * y.dt) < (advance w p 0 none y inp wk c x).d k :=
  C144_stretch_excess W P B hκ hv R C Ci
    (step_exact (d := ⟨p, y, inp, x⟩) (s := (c, wk)) W hm
      ⟨fun i h => hv.le.trans (C.j i h), fun k h j h' => hv.le.trans (C.I k h j h'), fun k h j h' => hv.le.trans (C.i k h j h'),
        fun k h => hv.le.trans (C.u k h), fun k h => hv.le.trans (C.d k h)⟩ ⟨P, B, C0, hx⟩).1 hk

/-- **C144 (when uniform decay is reproduced).** For a substance with the same positive rate everywhere (the rates
inside the superlinks are not even needed), uniform before the step and entering with the decayed concentration,
the uniformly decayed field solves the equations of the code exactly if there is no superlink (or no substance). -/
theorem C144_uniform_iff (P : Physical w p y inp) (B : WaterBalance w y inp) {κ v : K} (hκ : 0 < κ)
    (hKj : ∀ i, p.Krj i = κ)
    (hbc : ∀ i, inp.c_bc.getD (Conc.const v).j i = v / (1 + κ * y.dt)) (hj : ∀ i, inp.c_0j i = v / (1 + κ * y.dt))
    (hI : ∀ i, inp.c_0I i = v / (1 + κ * y.dt)) :
    Transport w p y inp (Conc.const v) (Conc.const (v / (1 + κ * y.dt))) ↔ w.ix.NK = 0 ∨ v = 0 := by
  have hdt := P.dt
  have hpos := mul_pos hκ hdt
  have h1 : 0 < 1 + κ * y.dt := by positivity
  obtain ⟨m, hm⟩ : ∃ m, m = v / (1 + κ * y.dt) := ⟨_, rfl⟩
  rw [← hm] at hbc hj hI ⊢
  have hvm : v = m + κ * y.dt * m := by rw [hm]; field_simp
  constructor
  · intro T
    by_contra hc
    obtain ⟨hN, hv⟩ := not_or.mp hc
    have hk : 0 < w.ix.NK := Nat.pos_of_ne_zero hN
    have u := (T.links 0 hk).up
    have b := B.up 0 hk
    simp only [CellEq, uFluxDn, uFluxUp, Conc.const, flux_const] at u
    have e : y.dx_u 0 * y.A_u 0 * m = y.dx_u 0 * y.A_u 0 * v := by
      have hd := hdt.ne'
      field_simp at u b ⊢
      linear_combination u - m * b
    have hV : y.dx_u 0 * y.A_u 0 ≠ 0 := (mul_pos (P.dxu 0 hk) (P.Au 0 hk)).ne'
    have hmv := mul_left_cancel₀ hV e
    rw [hmv] at hvm
    have : κ * y.dt * v = 0 := by linarith
    exact hv ((mul_eq_zero.mp this).resolve_left hpos.ne')
  · rintro (hN | hv)
    · have T2 := uniform_undecay (p := p) hdt.ne' B m
      refine ⟨fun k hk => absurd hk (by omega), fun i hi hb => (hbc i).symm, fun i hi hb => ?_⟩
      have s := T2.super i hi hb
      simp only [Conc.undecay, Conc.const, hKj] at s
      rw [hj i]
      simp only [Conc.const, hKj]
      rw [hvm]
      exact s
    · have hm0 : m = 0 := by rw [hm, hv, zero_div]
      have T2 := uniform_undecay (p := p) hdt.ne' B 0
      have S : SameOn w ((Conc.const 0).undecay p y.dt (Conc.const 0)) (Conc.const v) := by
        rw [hv]
        constructor <;> intros <;> simp [Conc.undecay, Conc.const]
      rw [hm0] at hbc hj hI ⊢
      refine ⟨fun k hk => ?_, fun i hi hb => (hbc i).symm, fun i hi hb => ?_⟩
      · have t := T2.links k hk
        refine ⟨fun j hj' => ?_, fun j hj' => ?_, ?_, ?_⟩
        · simpa [Conc.undecay, Conc.const, hv] using t.link j hj'
        · have := t.node j hj'
          rw [hI]
          simpa [Conc.undecay, Conc.const, hv] using this
        · simpa [Conc.undecay, Conc.const, hv] using t.up
        · simpa [Conc.undecay, Conc.const, hv] using t.dn
      · have := T2.super i hi hb
        rw [hj]
        simpa [Conc.undecay, Conc.const, hv] using this

/-! ### A closed tank -/

/-- **C144 (a closed tank).** In a tank without connections and with constant volume, decay divides the
concentration by `1 + κ dt`. -/
theorem C144_tank {wk : Work K} (W : Wired w) (hm : CleanMats w wk.mats) {x : ℕ → K} (hx : Solved w p y inp wk c x) {i : ℕ}
    (hi : i < w.M) (hb : w.bc i = false) (iso : Isolated w i) (hdt : 0 < y.dt) (hV : 0 < y.V i) (hVp : y.V_prev i = y.V i)
    (hK : 0 ≤ p.Krj i) (hQ : inp.Q_0j i = 0) (hc : 0 ≤ c.j i) {lo : K} {hi' : Option K} (hlo : lo ≤ 0)
    (hhi : ∀ q, hi' = some q → c.j i ≤ q) :
    (advance w p lo hi' y inp wk c x).j i = c.j i / (1 + p.Krj i * y.dt) := by
  have s := ((solved_iff W hm x (fun _ => 0) (fun _ => 0)).mp hx).2 i hi hb
  rw [superNet_isolated _ _ _ iso, hQ, hVp] at s
  have h1 : 0 < 1 + p.Krj i * y.dt := by positivity
  have e : x i = c.j i / (1 + p.Krj i * y.dt) := by
    rw [eq_div_iff h1.ne']
    refine mul_left_cancel₀ hV.ne' ?_
    unfold CellEq at s
    field_simp at s
    linear_combination s
  have hx0 : 0 ≤ x i := by rw [e]; positivity
  have hxc : x i ≤ c.j i := by
    rw [e]
    have := mul_nonneg hK hdt.le
    exact div_le_self hc (by linarith)
  show limit lo hi' (x i) = _
  rw [limit_eq (hlo.trans hx0) (fun q hq => hxc.trans (hhi q hq)), e]

/-- A step over a closed tank of rate `κ` and constant volume, with the default limits. -/
structure TankStep (w : Wiring) (κ : K) (i : ℕ) (d : StepData K) (s : Conc K × Work K) : Prop where
  dt : 0 < d.y.dt
  V : 0 < d.y.V i
  still : d.y.V_prev i = d.y.V i
  rate : d.p.Krj i = κ
  dry : d.inp.Q_0j i = 0
  x : Solved w d.p d.y d.inp s.2 s.1 d.x

/-- … in every step. -/
def TankSteps (w : Wiring) (κ : K) (i : ℕ) : List (StepData K) → Conc K × Work K → Prop
  | [], _ => True
  | d :: ds, s => TankStep w κ i d s ∧
      TankSteps w κ i ds (advance w d.p 0 none d.y d.inp s.2 s.1 d.x, stepWork w d.p d.y d.inp s.2 s.1)

/-- **C144 (runs).** Over any run the concentration of a closed tank is the initial one divided by the product of
the `1 + κ dt`. -/
theorem C144_tank_run (W : Wired w) {i : ℕ} (hi : i < w.M) (hb : w.bc i = false) (iso : Isolated w i) {κ : K} (hκ : 0 ≤ κ)
    (ds : List (StepData K)) (s : Conc K × Work K) (hm : CleanMats w s.2.mats) (hc : 0 ≤ s.1.j i)
    (h : TankSteps w κ i ds s) :
    (runSteps w 0 none ds s).1.j i = s.1.j i / (ds.map fun d => 1 + κ * d.y.dt).prod := by
  induction ds generalizing s with
  | nil => simp [runSteps]
  | cons d ds ih =>
    obtain ⟨a, r⟩ := h
    have e := C144_tank (lo := 0) (hi' := none) W hm a.x hi hb iso a.dt a.V a.still (by rw [a.rate]; exact hκ) a.dry hc
      le_rfl (by simp)
    rw [a.rate] at e
    have hp : 0 < 1 + κ * d.y.dt := by have := a.dt; positivity
    have := ih (advance w d.p 0 none d.y d.inp s.2 s.1 d.x, stepWork w d.p d.y d.inp s.2 s.1) (cleanMats_step hm)
      (by show 0 ≤ _; rw [e]; positivity) r
    show (runSteps w 0 none ds _).1.j i = _
    rw [this]
    show (advance w d.p 0 none d.y d.inp s.2 s.1 d.x).j i / _ = _
    rw [e, List.map_cons, List.prod_cons, div_div]

/-- Steps with rates of at most `κ`, in which nothing flows in more dilute than the water was at the beginning of the
run after decaying at that rate (`v` is the lowest concentration before the first of these steps). -/
def FloorSteps (w : Wiring) (κ : K) : List (StepData K) → K → Conc K × Work K → Prop
  | [], _, _ => True
  | d :: ds, v, s => RatesLe w κ d.p ∧ InGe w (v / (1 + κ * d.y.dt)) d.inp s.1 ∧
      FloorSteps w κ ds (v / (1 + κ * d.y.dt)) (advance w d.p 0 none d.y d.inp s.2 s.1 d.x, stepWork w d.p d.y d.inp s.2 s.1)

/-- **C144 (no faster than the rate, over runs).** Over any run, with any flows, no concentration anywhere falls below the
lowest at the beginning divided by the product of the `1 + κ dt`. -/
theorem C144_floor_run (W : Wired w) {κ : K} (hκ : 0 ≤ κ) (ds : List (StepData K)) {v : K} (hv : 0 ≤ v) (s : Conc K × Work K)
    (hm : CleanMats w s.2.mats) (C : AllGe w v s.1) (G : GoodSteps w ds s) (F : FloorSteps w κ ds v s) :
    AllGe w (v / (ds.map fun d => 1 + κ * d.y.dt).prod) (runSteps w 0 none ds s).1 := by
  induction ds generalizing s v with
  | nil => simpa [runSteps] using C
  | cons d ds ih =>
    obtain ⟨g, G⟩ := G
    obtain ⟨R, I, F⟩ := F
    have hdt := g.P.dt
    have hp : 0 < 1 + κ * d.y.dt := by positivity
    have T := (step_exact (d := d) (s := s) W hm
      ⟨fun i h => hv.trans (C.j i h), fun k h j h' => hv.trans (C.I k h j h'), fun k h j h' => hv.trans (C.i k h j h'),
        fun k h => hv.trans (C.u k h), fun k h => hv.trans (C.d k h)⟩ g).1
    have := ih (div_nonneg hv hp.le) (advance w d.p 0 none d.y d.inp s.2 s.1 d.x, stepWork w d.p d.y d.inp s.2 s.1)
      (cleanMats_step hm) (C144_floor W g.P g.B hκ hv R C I T) G F
    rw [List.map_cons, List.prod_cons, ← div_div]
    exact this

end

/-! ### Against the exponential law -/

/-- **C144 (the decay law).** The run never overtakes the exponential law `c₀ e^(-κ t)`, whatever the step sizes. -/
theorem C144_above_exponential {κ : ℝ} (hκ : 0 ≤ κ) {c₀ : ℝ} (hc : 0 ≤ c₀) (dts : List ℝ) (h : ∀ d ∈ dts, 0 ≤ d) :
    c₀ * Real.exp (-(κ * dts.sum)) ≤ c₀ / (dts.map fun d => 1 + κ * d).prod := by
  have key : ∀ l : List ℝ, (∀ d ∈ l, 0 ≤ d) →
      0 < (l.map fun d => 1 + κ * d).prod ∧ (l.map fun d => 1 + κ * d).prod ≤ Real.exp (κ * l.sum) := by
    intro l
    induction l with
    | nil => intro _; simp
    | cons d l ih =>
      intro hl
      obtain ⟨a, b⟩ := ih fun e he => hl e (List.mem_cons_of_mem _ he)
      have hd := hl d (by simp)
      rw [List.map_cons, List.prod_cons, List.sum_cons, mul_add, Real.exp_add]
      have h1 : 0 < 1 + κ * d := by positivity
      have h2 : 1 + κ * d ≤ Real.exp (κ * d) := by have := Real.add_one_le_exp (κ * d); linarith
      exact ⟨mul_pos h1 a, mul_le_mul h2 b a.le (Real.exp_pos _).le⟩
  obtain ⟨a, b⟩ := key dts h
  rw [Real.exp_neg, div_eq_mul_inv]
  exact mul_le_mul_of_nonneg_left (inv_anti₀ a b) hc

/-- **C144 (runs against the decay law).** In a network of any shape, with any flows, nothing decays faster than the
exponential law. -/
theorem C144_floor_exponential {w : Wiring} (W : Wired w) {κ : ℝ} (hκ : 0 ≤ κ) (ds : List (StepData ℝ)) {v : ℝ}
    (hv : 0 ≤ v) (s : Conc ℝ × Work ℝ) (hm : CleanMats w s.2.mats) (C : AllGe w v s.1) (G : GoodSteps w ds s)
    (F : FloorSteps w κ ds v s) (hdt : ∀ d ∈ ds, 0 ≤ d.y.dt) :
    AllGe w (v * Real.exp (-(κ * (ds.map fun d => d.y.dt).sum))) (runSteps w 0 none ds s).1 := by
  have h := C144_floor_run W hκ ds hv s hm C G F
  have e := C144_above_exponential hκ hv (ds.map fun d => d.y.dt) (by simpa using hdt)
  rw [List.map_map] at e
  exact ⟨fun i hi => e.trans (h.j i hi), fun k hk j hj => e.trans (h.I k hk j hj), fun k hk j hj => e.trans (h.i k hk j hj),
    fun k hk => e.trans (h.u k hk), fun k hk => e.trans (h.d k hk)⟩

/-- **C144 (refinement).** With ever more equal steps over the same time the run converges to the exponential
law. -/
theorem C144_converges (κ t c₀ : ℝ) :
    Filter.Tendsto (fun n : ℕ => c₀ / ((List.replicate n (t / n)).map fun d => 1 + κ * d).prod) Filter.atTop
      (nhds (c₀ * Real.exp (-(κ * t)))) := by
  have h := Real.tendsto_one_add_div_pow_exp (κ * t)
  have h2 := (h.inv₀ (Real.exp_pos _).ne').const_mul c₀
  rw [← Real.exp_neg] at h2
  refine h2.congr fun n => ?_
  rw [List.map_replicate, List.prod_replicate, mul_div_assoc, ← div_eq_mul_inv]

/-! ### Non-vacuity -/

namespace Ex

/-- The network of `QualityMass` with a rate of one hundredth per second everywhere. -/
def pd : Params ℚ := { p with Kr := fun _ => 1 / 100, KrI := fun _ => 1 / 100, Krj := fun _ => 1 / 100 }

theorem physical_d : Physical w pd y inp := by
  refine ⟨?_, ?_, ?_, ?_, ?_, ?_, ?_, ?_, ?_, ?_, ?_, ?_, ?_, ?_, ?_, ?_, ?_⟩ <;> simp [pd, p, y, inp]

/-- Old concentrations of 1 would decay to 10/11; the end stretches keep more. -/
example : ∃ x, Solved w pd y inp wk c x ∧ 10 / 11 < (advance w pd 0 none y inp wk c x).u 0 := by
  obtain ⟨x, hx⟩ := (C75_solvable (c := c) wired physical_d balance clean).1
  have C : AllGe w 1 c := by constructor <;> simp [c, Conc.const]
  have C0 : AllGe w 0 c := by constructor <;> simp [c, Conc.const]
  have T := (step_exact (d := ⟨pd, y, inp, x⟩) (s := (c, wk)) wired clean C0
    ⟨physical_d, balance, ⟨by simp [inp], by simp [inp], by simp [inp]⟩, hx⟩).1
  refine ⟨x, hx, ?_⟩
  have h := (C144_stretch_excess (κ := 1 / 100) (v := 1) wired physical_d balance (by norm_num) (by norm_num)
    ⟨by simp [pd], by simp [pd], by simp [pd]⟩ C
    ⟨by simp [inp, y]; norm_num, by simp [inp, y]; norm_num, by simp [inp]⟩ T (k := 0) (by simp [w])).1
  have e : (1 : ℚ) / (1 + 1 / 100 * y.dt) = 10 / 11 := by norm_num [y]
  rw [e] at h
  exact h

/-- … and the same step as a run of one step, within the hypotheses of the theorem on runs. -/
example : ∃ d : StepData ℚ, AllGe w (10 / 11) (runSteps w 0 none [d] (c, wk)).1 := by
  obtain ⟨x, hx⟩ := (C75_solvable (c := c) wired physical_d balance clean).1
  have C : AllGe w 1 c := by constructor <;> simp [c, Conc.const]
  have e : (1 : ℚ) / (1 + 1 / 100 * y.dt) = 10 / 11 := by norm_num [y]
  refine ⟨⟨pd, y, inp, x⟩, ?_⟩
  have := C144_floor_run (κ := 1 / 100) (v := 1) wired (by norm_num) [⟨pd, y, inp, x⟩] (by norm_num) (c, wk) clean C
    ⟨⟨physical_d, balance, ⟨by simp [inp], by simp [inp], by simp [inp]⟩, hx⟩, trivial⟩
    ⟨⟨by simp [pd], by simp [pd], by simp [pd]⟩,
      ⟨by simp [inp, y]; norm_num, by simp [inp, y]; norm_num, by simp [inp]⟩, trivial⟩
  rw [List.map_cons, List.map_nil, List.prod_cons, List.prod_nil, mul_one, e] at this
  exact this

end Ex

end Pipedream.Quality
