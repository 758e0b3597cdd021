import Verif.QualityExact

/-! # Contaminant mass of the whole network: C76, and a concrete network meeting all hypotheses -/

set_option linter.unusedSectionVars false

namespace Pipedream.Quality

open Pipedream.Network Pipedream.Link Pipedream.Sweep

variable {K : Type*} [Field K] [LinearOrder K] [IsStrictOrderedRing K]

/-- Sum of a quantity over all control volumes: free superjunctions, junctions, links, end stretches. -/
def total (w : Wiring) (q : Conc K) : K :=
  ∑ i ∈ Finset.range w.M, (if w.bc i = true then 0 else q.j i)
  + ∑ k ∈ Finset.range w.ix.NK, (∑ j ∈ Finset.range (w.ix.nk k), q.i (w.ix.i_1k k + j)
    + ∑ j ∈ Finset.range (w.ix.nk k + 1), q.I (w.ix.I_1k k + j) + q.u k + q.d k)

/-- Volumes of the control volumes now / before the step. -/
def volumes (y : Hydro K) : Conc K :=
  ⟨y.V, fun i => y.A_S i * y.h i, fun i => y.dx i * y.A i, fun k => y.dx_u k * y.A_u k, fun k => y.dx_d k * y.A_d k⟩
def volumesPrev (y : Hydro K) : Conc K :=
  ⟨y.V_prev, fun i => y.A_S i * y.h_prev i, fun i => y.dx i * y.A_prev i, fun k => y.dx_u k * y.A_u_prev k,
    fun k => y.dx_d k * y.A_d_prev k⟩

/-- Entrywise operations on quantities per control volume. -/
def Conc.map₂ (f : K → K → K) (a b : Conc K) : Conc K :=
  ⟨fun i => f (a.j i) (b.j i), fun i => f (a.I i) (b.I i), fun i => f (a.i i) (b.i i), fun i => f (a.u i) (b.u i),
    fun i => f (a.d i) (b.d i)⟩
def Conc.mul (a b : Conc K) : Conc K := a.map₂ (· * ·) b
def Conc.sub (a b : Conc K) : Conc K := a.map₂ (· - ·) b

/-- Reaction rates per control volume (the end stretches do not react). -/
def rates (p : Params K) : Conc K := ⟨p.Krj, p.KrI, p.Kr, fun _ => 0, fun _ => 0⟩

/-- Contaminant entering with inflows, per time. -/
def inflow (inp : Inputs K) : Conc K :=
  ⟨fun i => inp.Q_0j i * inp.c_0j i, fun i => inp.Q_0I i * inp.c_0I i, fun _ => 0, fun _ => 0, fun _ => 0⟩

/-- Contaminant leaving the fixed superjunctions into the network, per time. -/
def fromBoundary (w : Wiring) (p : Params K) (y : Hydro K) (new : Conc K) : K :=
  ∑ i ∈ Finset.range w.M, (if w.bc i = true then superNet w p y new i else 0)

section
variable {w : Wiring} {p : Params K} {y : Hydro K} {inp : Inputs K} {wk : Work K} {c new : Conc K}

/-- What leaves the control volumes of one superlink leaves through its two outer faces. -/
theorem telescope (k : ℕ) :
    ∑ j ∈ Finset.range (w.ix.nk k), (linkFluxDn p y (w.ix.i_1k k + j) (new.i (w.ix.i_1k k + j))
        (new.I (w.ix.I_1k k + (j + 1))) - linkFluxUp p y (w.ix.i_1k k + j) (new.I (w.ix.I_1k k + j))
        (new.i (w.ix.i_1k k + j)))
      + ∑ j ∈ Finset.range (w.ix.nk k + 1), (nodeOut w p y new k j - nodeIn w p y new k j)
      + (uFluxDn p y k (new.u k) (new.I (w.ix.I_1k k + 0)) - uFluxUp p y k (new.j (w.Ju k)) (new.u k))
      + (dFluxDn p y k (new.d k) (new.j (w.Jd k)) - dFluxUp p y k (new.I (w.ix.I_1k k + w.ix.nk k)) (new.d k))
    = dFluxDn p y k (new.d k) (new.j (w.Jd k)) - uFluxUp p y k (new.j (w.Ju k)) (new.u k) := by
  rw [Finset.sum_sub_distrib, Finset.sum_sub_distrib]
  have e1 : ∑ j ∈ Finset.range (w.ix.nk k + 1), nodeOut w p y new k j
      = ∑ j ∈ Finset.range (w.ix.nk k), linkFluxUp p y (w.ix.i_1k k + j) (new.I (w.ix.I_1k k + j))
        (new.i (w.ix.i_1k k + j)) + dFluxUp p y k (new.I (w.ix.I_1k k + w.ix.nk k)) (new.d k) := by
    rw [Finset.sum_range_succ]
    congr 1
    · refine Finset.sum_congr rfl fun j hj => ?_
      have hj := Finset.mem_range.mp hj
      unfold nodeOut; rw [if_neg (by omega)]
    · unfold nodeOut; rw [if_pos rfl]
  have e2 : ∑ j ∈ Finset.range (w.ix.nk k + 1), nodeIn w p y new k j
      = ∑ j ∈ Finset.range (w.ix.nk k), linkFluxDn p y (w.ix.i_1k k + j) (new.i (w.ix.i_1k k + j))
        (new.I (w.ix.I_1k k + (j + 1))) + uFluxDn p y k (new.u k) (new.I (w.ix.I_1k k + 0)) := by
    rw [Finset.sum_range_succ']
    congr 1
  rw [e1, e2]
  ring

theorem ctrlNet_sum {n M : ℕ} {Ju Jd : ℕ → ℕ} (Q x : ℕ → K) (hu : ∀ k, k < n → Ju k < M) (hd : ∀ k, k < n → Jd k < M) :
    ∑ i ∈ Finset.range M, ctrlNet n Ju Jd Q x i = 0 := by
  unfold ctrlNet
  rw [Finset.sum_comm]
  apply Finset.sum_eq_zero
  intro k hk
  have hk := Finset.mem_range.mp hk
  rw [Finset.sum_sub_distrib, Finset.sum_ite_eq, Finset.sum_ite_eq, if_pos (Finset.mem_range.mpr (hu k hk)),
    if_pos (Finset.mem_range.mpr (hd k hk)), sub_self]

theorem superNet_sum (W : Wired w) :
    ∑ i ∈ Finset.range w.M, superNet w p y new i
      = ∑ k ∈ Finset.range w.ix.NK, (uFluxUp p y k (new.j (w.Ju k)) (new.u k)
        - dFluxDn p y k (new.d k) (new.j (w.Jd k))) := by
  unfold superNet
  rw [Finset.sum_add_distrib, Finset.sum_add_distrib, Finset.sum_add_distrib, ctrlNet_sum _ _ W.ou W.od,
    ctrlNet_sum _ _ W.wu W.wd, ctrlNet_sum _ _ W.pu W.pd, add_zero, add_zero, add_zero, Finset.sum_comm]
  refine Finset.sum_congr rfl fun k hk => ?_
  have hk := Finset.mem_range.mp hk
  rw [Finset.sum_sub_distrib, Finset.sum_ite_eq, Finset.sum_ite_eq, if_pos (Finset.mem_range.mpr (W.lu k hk)),
    if_pos (Finset.mem_range.mpr (W.ld k hk))]

theorem sum_split {N : ℕ} {t : K} {a b d e f g : ℕ → K}
    (h : ∀ k, k < N → a k - b k = t * (d k - e k) - f k + t * g k) :
    ∑ k ∈ Finset.range N, a k - ∑ k ∈ Finset.range N, b k
      = t * (∑ k ∈ Finset.range N, d k - ∑ k ∈ Finset.range N, e k) - ∑ k ∈ Finset.range N, f k
        + t * ∑ k ∈ Finset.range N, g k := by
  rw [← Finset.sum_sub_distrib, ← Finset.sum_sub_distrib, Finset.mul_sum, Finset.mul_sum,
    ← Finset.sum_sub_distrib, ← Finset.sum_add_distrib]
  exact Finset.sum_congr rfl fun k hk => h k (Finset.mem_range.mp hk)

/-- **C76.** Contaminant accounting of the network for every solution of the transport equations (in
particular for the result of a step, C74): the stored mass grows by the inflows and by what leaves the fixed
superjunctions, minus what reacts, minus the term `(V - V_prev)(c - c_prev)` of every control volume. -/
theorem C76_network_mass (W : Wired w) (hdt : y.dt ≠ 0) (T : Transport w p y inp c new) :
    total w ((volumes y).mul new) - total w ((volumesPrev y).mul c)
      = y.dt * (total w (inflow inp) + fromBoundary w p y new - total w ((rates p).mul ((volumes y).mul new)))
        - total w (((volumes y).sub (volumesPrev y)).mul (new.sub c)) := by
  have cell : ∀ {V Vp Kr cp v net src : K}, CellEq y.dt V Vp Kr cp v net src →
      V * v - Vp * cp = y.dt * (src - Kr * (V * v)) - (V - Vp) * (v - cp) - y.dt * net := by
    intro V Vp Kr cp v net src h
    unfold CellEq at h
    have : y.dt * ((2 * V - Vp) / y.dt * v + Kr * V * v + net) = y.dt * (V * cp / y.dt + src) := by rw [h]
    have e1 : y.dt * ((2 * V - Vp) / y.dt * v + Kr * V * v + net)
        = (2 * V - Vp) * v + y.dt * (Kr * V * v + net) := by field_simp; ring
    have e2 : y.dt * (V * cp / y.dt + src) = V * cp + y.dt * src := by field_simp
    rw [e1, e2] at this
    linear_combination this
  -- superjunctions
  have sj : ∑ i ∈ Finset.range w.M, (if w.bc i = true then 0 else y.V i * new.j i)
      - ∑ i ∈ Finset.range w.M, (if w.bc i = true then 0 else y.V_prev i * c.j i)
      = y.dt * (∑ i ∈ Finset.range w.M, (if w.bc i = true then 0 else inp.Q_0j i * inp.c_0j i)
          + fromBoundary w p y new
          - ∑ i ∈ Finset.range w.M, (if w.bc i = true then 0 else p.Krj i * (y.V i * new.j i)))
        - ∑ i ∈ Finset.range w.M, (if w.bc i = true then 0 else (y.V i - y.V_prev i) * (new.j i - c.j i))
        - y.dt * ∑ i ∈ Finset.range w.M, superNet w p y new i := by
    unfold fromBoundary
    simp only [← Finset.sum_sub_distrib, ← Finset.sum_add_distrib, Finset.mul_sum]
    refine Finset.sum_congr rfl fun i hi => ?_
    have hi := Finset.mem_range.mp hi
    by_cases hb : w.bc i = true
    · simp only [hb, if_true]; ring
    · have hb' : w.bc i = false := by simpa using hb
      have := cell (T.super i hi hb')
      simp only [hb', Bool.false_eq_true, if_false]
      linear_combination this
  -- superlinks
  have sl : ∀ k, k < w.ix.NK →
      (∑ j ∈ Finset.range (w.ix.nk k), y.dx (w.ix.i_1k k + j) * y.A (w.ix.i_1k k + j) * new.i (w.ix.i_1k k + j)
        + ∑ j ∈ Finset.range (w.ix.nk k + 1),
          y.A_S (w.ix.I_1k k + j) * y.h (w.ix.I_1k k + j) * new.I (w.ix.I_1k k + j)
        + y.dx_u k * y.A_u k * new.u k + y.dx_d k * y.A_d k * new.d k)
      - (∑ j ∈ Finset.range (w.ix.nk k), y.dx (w.ix.i_1k k + j) * y.A_prev (w.ix.i_1k k + j) * c.i (w.ix.i_1k k + j)
        + ∑ j ∈ Finset.range (w.ix.nk k + 1),
          y.A_S (w.ix.I_1k k + j) * y.h_prev (w.ix.I_1k k + j) * c.I (w.ix.I_1k k + j)
        + y.dx_u k * y.A_u_prev k * c.u k + y.dx_d k * y.A_d_prev k * c.d k)
      = y.dt * ((∑ j ∈ Finset.range (w.ix.nk k), (0:K)
        + ∑ j ∈ Finset.range (w.ix.nk k + 1), inp.Q_0I (w.ix.I_1k k + j) * inp.c_0I (w.ix.I_1k k + j) + 0 + 0)
        - (∑ j ∈ Finset.range (w.ix.nk k), p.Kr (w.ix.i_1k k + j)
            * (y.dx (w.ix.i_1k k + j) * y.A (w.ix.i_1k k + j) * new.i (w.ix.i_1k k + j))
          + ∑ j ∈ Finset.range (w.ix.nk k + 1), p.KrI (w.ix.I_1k k + j)
            * (y.A_S (w.ix.I_1k k + j) * y.h (w.ix.I_1k k + j) * new.I (w.ix.I_1k k + j))
          + 0 * (y.dx_u k * y.A_u k * new.u k) + 0 * (y.dx_d k * y.A_d k * new.d k)))
      - (∑ j ∈ Finset.range (w.ix.nk k), (y.dx (w.ix.i_1k k + j) * y.A (w.ix.i_1k k + j)
            - y.dx (w.ix.i_1k k + j) * y.A_prev (w.ix.i_1k k + j)) * (new.i (w.ix.i_1k k + j) - c.i (w.ix.i_1k k + j))
        + ∑ j ∈ Finset.range (w.ix.nk k + 1), (y.A_S (w.ix.I_1k k + j) * y.h (w.ix.I_1k k + j)
            - y.A_S (w.ix.I_1k k + j) * y.h_prev (w.ix.I_1k k + j)) * (new.I (w.ix.I_1k k + j) - c.I (w.ix.I_1k k + j))
        + (y.dx_u k * y.A_u k - y.dx_u k * y.A_u_prev k) * (new.u k - c.u k)
        + (y.dx_d k * y.A_d k - y.dx_d k * y.A_d_prev k) * (new.d k - c.d k))
      + y.dt * (uFluxUp p y k (new.j (w.Ju k)) (new.u k) - dFluxDn p y k (new.d k) (new.j (w.Jd k))) := by
    intro k hk
    have L := T.links k hk
    have tl := telescope (w := w) (p := p) (y := y) (new := new) k
    have a1 : ∑ j ∈ Finset.range (w.ix.nk k),
          (y.dx (w.ix.i_1k k + j) * y.A (w.ix.i_1k k + j) * new.i (w.ix.i_1k k + j)
            - y.dx (w.ix.i_1k k + j) * y.A_prev (w.ix.i_1k k + j) * c.i (w.ix.i_1k k + j))
        = ∑ j ∈ Finset.range (w.ix.nk k), _ := Finset.sum_congr rfl fun j hj => cell (L.link j (Finset.mem_range.mp hj))
    have a2 : ∑ j ∈ Finset.range (w.ix.nk k + 1),
          (y.A_S (w.ix.I_1k k + j) * y.h (w.ix.I_1k k + j) * new.I (w.ix.I_1k k + j)
            - y.A_S (w.ix.I_1k k + j) * y.h_prev (w.ix.I_1k k + j) * c.I (w.ix.I_1k k + j))
        = ∑ j ∈ Finset.range (w.ix.nk k + 1), _ := Finset.sum_congr rfl fun j hj =>
          cell (L.node j (Nat.lt_succ_iff.mp (Finset.mem_range.mp hj)))
    have a3 := cell L.up
    have a4 := cell L.dn
    rw [Finset.sum_sub_distrib, Finset.sum_sub_distrib, Finset.sum_sub_distrib, ← Finset.mul_sum, ← Finset.mul_sum,
      Finset.sum_sub_distrib] at a1 a2
    linear_combination a1 + a2 + a3 + a4 - y.dt * tl
  have sl' := sum_split sl
  rw [← superNet_sum W] at sl'
  unfold total
  simp only [Conc.mul, Conc.sub, Conc.map₂, volumes, volumesPrev, rates, inflow]
  linear_combination sj + sl'

/-- **C76, steady water levels.** When no volume changes, nothing reacts and no superjunction is fixed, the
stored contaminant changes by exactly what the inflows bring. -/
theorem C76_steady_conserved (W : Wired w) (hdt : y.dt ≠ 0) (T : Transport w p y inp c new)
    (hbc : ∀ i, i < w.M → w.bc i = false) (hV : volumes y = volumesPrev y)
    (hK : rates p = ⟨fun _ => 0, fun _ => 0, fun _ => 0, fun _ => 0, fun _ => 0⟩) :
    total w ((volumes y).mul new) = total w ((volumes y).mul c) + y.dt * total w (inflow inp) := by
  have h := C76_network_mass W hdt T
  have b0 : fromBoundary w p y new = 0 := by
    unfold fromBoundary
    refine Finset.sum_eq_zero fun i hi => ?_
    rw [hbc i (Finset.mem_range.mp hi)]; simp
  have k0 : total w ((rates p).mul ((volumes y).mul new)) = 0 := by
    rw [hK]; simp [total, Conc.mul, Conc.map₂]
  have d0 : total w (((volumes y).sub (volumesPrev y)).mul (new.sub c)) = 0 := by
    rw [hV]; simp [total, Conc.mul, Conc.sub, Conc.map₂]
  rw [b0, k0, d0, ← hV] at h
  linear_combination h

end

/-! ### Runs -/

/-- **C76 for a step.** The accounting holds for what the step returns, under the hypotheses of C74. -/
theorem C76_step_mass (W : Wired w) (P : Physical w p y inp) (B : WaterBalance w y inp)
    {wk : Work K} (hm : CleanMats w wk.mats) {lo m M : K} {hi : Option K} (hlo : lo ≤ m)
    (hhi : ∀ q, hi = some q → M ≤ q)
    (R : ReactGe w m p) (C : AllGe w m c) (Ci : InGe w m inp c)
    (R' : ReactLe w M p) (C' : AllLe w M c) (Ci' : InLe w M inp c)
    {x : ℕ → K} (hx : Solved w p y inp wk c x) :
    let new := advance w p lo hi y inp wk c x
    total w ((volumes y).mul new) - total w ((volumesPrev y).mul c)
      = y.dt * (total w (inflow inp) + fromBoundary w p y new - total w ((rates p).mul ((volumes y).mul new)))
        - total w (((volumes y).sub (volumesPrev y)).mul (new.sub c)) :=
  C76_network_mass W P.dt.ne' (C74_maximum_principle W P B hm hlo hhi R C Ci R' C' Ci' hx).1

/-- Every step of the run has physical data that balance water, values between `m` and `M`, and a solver
result. -/
def GoodRun (w : Wiring) (lo : K) (hi : Option K) (m M : K) : List (StepData K) → Conc K × Work K → Prop
  | [], _ => True
  | d :: ds, s => Physical w d.p d.y d.inp ∧ WaterBalance w d.y d.inp ∧ ReactGe w m d.p ∧ ReactLe w M d.p ∧
      InGe w m d.inp s.1 ∧ InLe w M d.inp s.1 ∧ Solved w d.p d.y d.inp s.2 s.1 d.x ∧
      GoodRun w lo hi m M ds (advance w d.p lo hi d.y d.inp s.2 s.1 d.x, stepWork w d.p d.y d.inp s.2 s.1)

/-- **C74, runs.** Over any sequence of steps no concentration leaves the range of the data. -/
theorem C74_run {w : Wiring} (W : Wired w) {lo m M : K} {hi : Option K} (hlo : lo ≤ m)
    (hhi : ∀ q, hi = some q → M ≤ q) (ds : List (StepData K)) (s : Conc K × Work K)
    (hm : CleanMats w s.2.mats) (C : AllGe w m s.1) (C' : AllLe w M s.1) (G : GoodRun w lo hi m M ds s) :
    AllGe w m (runSteps w lo hi ds s).1 ∧ AllLe w M (runSteps w lo hi ds s).1 := by
  induction ds generalizing s with
  | nil => exact ⟨C, C'⟩
  | cons d ds ih =>
    obtain ⟨P, B, R, R', Ci, Ci', hx, G⟩ := G
    obtain ⟨-, a, b⟩ := C74_maximum_principle W P B hm hlo hhi R C Ci R' C' Ci' hx
    exact ih _ (cleanMats_step hm) a b G

/-! ### A concrete network

Superjunction 0 (free, inflow 2 of concentration 5) feeds the fixed superjunction 1 (concentration 2)
through a superlink of two links and through an orifice, one unit of flow each; old concentrations are 1. -/

namespace Ex

def w : Wiring where
  M := 2
  ix := ⟨1, fun _ => 2, fun _ => 0, fun _ => 0⟩
  nix := ⟨fun _ => 0, fun I => I, fun I => I - 1, fun I => I == 0, fun I => I == 2⟩
  bc i := i == 1
  Ju _ := 0
  Jd _ := 1
  n_o := 1
  Juo _ := 0
  Jdo _ := 1
  n_w := 0
  Juw _ := 0
  Jdw _ := 0
  n_p := 0
  Jup _ := 0
  Jdp _ := 0

def p : Params ℚ := ⟨fun _ => 1, fun _ => 0, fun _ => 0, fun _ => 0, fun _ => 1, fun _ => 1⟩

def y : Hydro ℚ where
  dt := 10
  Q_up _ := 1
  Q_dn _ := 1
  A _ := 2
  A_prev _ := 2
  dx _ := 100
  A_S _ := 1
  h _ := 1
  h_prev _ := 1
  Qu_up _ := 1
  Qu_dn _ := 1
  A_u _ := 2
  A_u_prev _ := 2
  dx_u _ := 1
  Qd_up _ := 1
  Qd_dn _ := 1
  A_d _ := 2
  A_d_prev _ := 2
  dx_d _ := 1
  V _ := 20
  V_prev _ := 20
  Qo _ := 1
  Qw _ := 0
  Qp _ := 0

def inp : Inputs ℚ :=
  ⟨some fun _ => 2, fun _ => 5, fun _ => 2, fun _ => 0, fun _ => 0⟩

def c : Conc ℚ := Conc.const 1

def wk : Work ℚ :=
  ⟨⟨fun _ _ => 0, fun _ _ => 0, fun _ _ => 0, fun _ _ => 0⟩,
    ⟨fun _ => 0, fun _ => 0, fun _ => 0, fun _ => 0⟩, ⟨fun _ => 0, fun _ => 0, fun _ => 0, fun _ => 0⟩⟩

theorem wired : Wired w := by
  refine ⟨⟨fun _ _ => by simp [w], ?_, ?_⟩, fun k hk => ⟨?_, ?_, ?_, ?_, ?_⟩, ?_, ?_, ?_, ?_, ?_, ?_, ?_, ?_⟩ <;>
    simp [w] at * <;> omega

theorem physical : Physical w p y inp := by
  refine ⟨?_, ?_, ?_, ?_, ?_, ?_, ?_, ?_, ?_, ?_, ?_, ?_, ?_, ?_, ?_, ?_, ?_⟩ <;> simp [p, y, inp]

theorem balance : WaterBalance w y inp := by
  refine ⟨fun _ _ _ _ => by simp [y], fun k _ j _ => ?_, fun _ _ => by simp [y], fun _ _ => by simp [y], fun i hi hb => ?_⟩
  · simp only [nodeQout, nodeQin, y, inp]
    split_ifs <;> norm_num
  · have h : i = 0 := by
      have hi : i < 2 := hi
      by_contra h
      obtain rfl : i = 1 := by omega
      simp [w] at hb
    subst h
    simp [superQ, ctrlQ, w, y, inp]
    norm_num

theorem clean : CleanMats w wk.mats := cleanMats_zero w

/-- All hypotheses of C74 hold, with data between 1 and 5, and the step has a result. -/
example : ∃ x, Solved w p y inp wk c x ∧
    Transport w p y inp c (advance w p 0 none y inp wk c x) ∧
    AllGe w 1 (advance w p 0 none y inp wk c x) ∧ AllLe w 5 (advance w p 0 none y inp wk c x) := by
  obtain ⟨x, hx⟩ := (C75_solvable (c := c) wired physical balance clean).1
  refine ⟨x, hx, C74_maximum_principle wired physical balance clean (by norm_num) (by simp) ?_ ?_ ?_ ?_ ?_ ?_ hx⟩
  · constructor <;> simp [p]
  · constructor <;> simp [c, Conc.const]
  · refine ⟨?_, ?_, ?_⟩ <;> simp [inp]
  · constructor <;> simp [p]
  · refine ⟨?_, ?_, ?_, ?_, ?_⟩ <;> simp [c, Conc.const]
  · refine ⟨?_, ?_, ?_⟩ <;> simp [inp] <;> intros <;> norm_num

/-- Hypotheses of C56: the same pipe without dispersion. -/
example : let p0 : Params ℚ := { p with D_u := fun _ => 0, D_d := fun _ => 0 }
    ∀ x, dFluxDn p0 y 0 ((advance w p0 0 none y inp wk c x).d 0) ((advance w p0 0 none y inp wk c x).j 1) = 0 :=
  fun x => (C56_pure_advection_lost wired rfl (by simp) (by simp [w]) rfl rfl (by simp [y]) (by simp [y])
    (by simp [y]) x).2.2

end Ex

end Pipedream.Quality
