import Verif.QualityDecayProps

/-!
# C196: water drawn off takes the substance it contains

A negative entry of `Q_in` or `Q_0Ik` draws water off. The hydraulic step removes the water. The transport step
multiplies the same entry with the concentration prescribed for inflows (nquality.py 726, `Q_0j * c_0j`, and the
junction term `c_0_Ik * Q_0_Ik` of `eta_Ik`), which is zero unless the caller gives one (nquality.py 681–684).
-/

namespace Pipedream.Quality

open Pipedream.Network Pipedream.Link Pipedream.Sweep

section
variable {K : Type*} [Field K] [LinearOrder K] [IsStrictOrderedRing K]
variable {w : Wiring} {p : Params K} {y : Hydro K} {inp : Inputs K} {c : Conc K} {wk : Work K}

/-- Specification: the same inputs, with every inflow and withdrawal at concentration `v`. -/
def Inputs.at (inp : Inputs K) (v : K) : Inputs K :=
  { inp with c_0j := fun _ => v, c_0I := fun _ => v, c_bc := some fun _ => v }

/-- Changing only the source changes a balance by the source. -/
theorem cell_src {dt V V_prev Kr a b net s s' : K} (h : CellEq dt V V_prev Kr a b net s') :
    CellEq dt V V_prev Kr a b net s ↔ s = s' := by
  unfold CellEq at *
  constructor
  · intro g; linarith
  · rintro rfl; exact h

/-- **C196 (well-mixed network).** In a network filled with water of one concentration `v`, without reactions, the
uniform concentration solves the transport equations exactly if every superjunction and every junction that
receives *or loses* water has `v` prescribed as its inflow concentration. -/
theorem C196_uniform_iff (B : WaterBalance w y inp) (v : K)
    (hK : ∀ i, p.Kr i = 0) (hKI : ∀ i, p.KrI i = 0) (hKj : ∀ i, p.Krj i = 0) :
    Transport w p y inp (Conc.const v) (Conc.const v) ↔
      (∀ i, i < w.M → w.bc i = true → inp.c_bc.getD (fun _ => v) i = v) ∧
      (∀ i, i < w.M → w.bc i = false → inp.Q_0j i = 0 ∨ inp.c_0j i = v) ∧
      (∀ k, k < w.ix.NK → ∀ j, j ≤ w.ix.nk k →
        inp.Q_0I (w.ix.I_1k k + j) = 0 ∨ inp.c_0I (w.ix.I_1k k + j) = v) := by
  have T : Transport w p y (inp.at v) (Conc.const v) (Conc.const v) :=
    C55_uniform_solves (inp := inp.at v) ⟨B.link, B.node, B.up, B.dn, B.super⟩ hK hKI hKj (fun _ _ _ => rfl)
      (fun _ => rfl) (fun _ => rfl)
  have pq : ∀ q a : K, q * a = q * v ↔ q = 0 ∨ a = v := fun q a => by
    rw [← sub_eq_zero, ← mul_sub, mul_eq_zero, sub_eq_zero]
  constructor
  · intro S
    exact ⟨fun i hi hb => (S.fixed i hi hb).symm,
      fun i hi hb => (pq _ _).mp ((cell_src (T.super i hi hb)).mp (S.super i hi hb)),
      fun k hk j hj => (pq _ _).mp ((cell_src ((T.links k hk).node j hj)).mp ((S.links k hk).node j hj))⟩
  · rintro ⟨f, s, n⟩
    exact ⟨fun k hk => ⟨(T.links k hk).link,
        fun j hj => (cell_src ((T.links k hk).node j hj)).mpr ((pq _ _).mpr (n k hk j hj)), (T.links k hk).up,
        (T.links k hk).dn⟩,
      fun i hi hb => (f i hi hb).symm, fun i hi hb => (cell_src (T.super i hi hb)).mpr ((pq _ _).mpr (s i hi hb))⟩

/-- **C196 (default concentrations).** With the default inflow concentration of zero, water of concentration
`v ≠ 0` keeps its concentration only if no superjunction and no junction gains or loses water. -/
theorem C196_default_iff (B : WaterBalance w y inp) {v : K} (hv : v ≠ 0)
    (hK : ∀ i, p.Kr i = 0) (hKI : ∀ i, p.KrI i = 0) (hKj : ∀ i, p.Krj i = 0)
    (hbc : ∀ i, i < w.M → w.bc i = true → inp.c_bc.getD (fun _ => v) i = v)
    (h0 : ∀ i, inp.c_0j i = 0) (h0I : ∀ i, inp.c_0I i = 0) :
    Transport w p y inp (Conc.const v) (Conc.const v) ↔
      (∀ i, i < w.M → w.bc i = false → inp.Q_0j i = 0) ∧
      (∀ k, k < w.ix.NK → ∀ j, j ≤ w.ix.nk k → inp.Q_0I (w.ix.I_1k k + j) = 0) := by
  rw [C196_uniform_iff B v hK hKI hKj]
  simp only [h0, h0I, hv.symm, or_false]
  exact ⟨fun h => h.2, fun h => ⟨hbc, h⟩⟩

/-! ### A tank -/

/-- The row of a tank without connections whose volume changed by the inflow. -/
theorem tank_row (W : Wired w) (hm : CleanMats w wk.mats) {x : ℕ → K} (hx : Solved w p y inp wk c x) {i : ℕ}
    (hi : i < w.M) (hb : w.bc i = false) (iso : Isolated w i) (hdt : 0 < y.dt) (hK : p.Krj i = 0)
    (hV : y.V i = y.V_prev i + y.dt * inp.Q_0j i) :
    (y.V i + y.dt * inp.Q_0j i) * x i = y.V i * c.j i + y.dt * inp.Q_0j i * inp.c_0j i := by
  have s := ((solved_iff W hm x (fun _ => 0) (fun _ => 0)).mp hx).2 i hi hb
  rw [superNet_isolated _ _ _ iso, hK] at s
  unfold CellEq at s
  have hd := hdt.ne'
  field_simp at s
  have e : y.V i + y.dt * inp.Q_0j i = 2 * y.V i - y.V_prev i := by rw [hV]; ring
  rw [e]
  linear_combination s

/-- **C196 (a tank).** Drawing water off a tank leaves its concentration alone exactly if the prescribed inflow
concentration is the concentration of the tank. -/
theorem C196_tank_iff (W : Wired w) (hm : CleanMats w wk.mats) {x : ℕ → K} (hx : Solved w p y inp wk c x) {i : ℕ}
    (hi : i < w.M) (hb : w.bc i = false) (iso : Isolated w i) (hdt : 0 < y.dt) (hK : p.Krj i = 0)
    (hV : y.V i = y.V_prev i + y.dt * inp.Q_0j i) (hQ : inp.Q_0j i < 0) (hc : y.V i + y.dt * inp.Q_0j i ≠ 0) :
    x i = c.j i ↔ inp.c_0j i = c.j i := by
  have r := tank_row W hm hx hi hb iso hdt hK hV
  have hq : y.dt * inp.Q_0j i ≠ 0 := (mul_neg_of_pos_of_neg hdt hQ).ne
  constructor
  · intro h
    rw [h] at r
    exact mul_left_cancel₀ hq (by linear_combination -r)
  · intro h
    rw [h] at r
    exact mul_left_cancel₀ hc (by linear_combination r)

/-- **C196 (a tank, default concentration).** With the default inflow concentration the substance stays behind:
the concentration rises by the factor `V / (V - drawn)`. -/
theorem C196_tank_rises (W : Wired w) (hm : CleanMats w wk.mats) {x : ℕ → K} (hx : Solved w p y inp wk c x) {i : ℕ}
    (hi : i < w.M) (hb : w.bc i = false) (iso : Isolated w i) (hdt : 0 < y.dt) (hK : p.Krj i = 0)
    (hV : y.V i = y.V_prev i + y.dt * inp.Q_0j i) (hQ : inp.Q_0j i < 0) (h0 : inp.c_0j i = 0) (hc : 0 < c.j i)
    (hp : 0 < y.V i + y.dt * inp.Q_0j i) :
    c.j i < (advance w p 0 none y inp wk c x).j i ∧
      (advance w p 0 none y inp wk c x).j i = y.V i / (y.V i + y.dt * inp.Q_0j i) * c.j i := by
  have r := tank_row W hm hx hi hb iso hdt hK hV
  rw [h0, mul_zero, add_zero] at r
  have hq : y.dt * inp.Q_0j i < 0 := mul_neg_of_pos_of_neg hdt hQ
  have e : x i = y.V i / (y.V i + y.dt * inp.Q_0j i) * c.j i := by
    rw [div_mul_eq_mul_div, eq_div_iff hp.ne', ← r]; ring
  have g : c.j i < x i := by
    rw [e, div_mul_eq_mul_div, lt_div_iff₀ hp]
    nlinarith
  have l : (advance w p 0 none y inp wk c x).j i = x i := by
    show limit 0 none (x i) = x i
    exact limit_eq (hc.le.trans g.le) (by simp)
  rw [l]
  exact ⟨g, e⟩

/-- **C196 (large withdrawals).** When more water is drawn off than remains, the solver's concentration is negative,
and the lower limit of zero then removes the whole substance from the water that is left. -/
theorem C196_tank_lost (W : Wired w) (hm : CleanMats w wk.mats) {x : ℕ → K} (hx : Solved w p y inp wk c x) {i : ℕ}
    (hi : i < w.M) (hb : w.bc i = false) (iso : Isolated w i) (hdt : 0 < y.dt) (hK : p.Krj i = 0)
    (hV : y.V i = y.V_prev i + y.dt * inp.Q_0j i) (h0 : inp.c_0j i = 0) (hc : 0 < c.j i) (hV0 : 0 < y.V i)
    (hp : y.V i + y.dt * inp.Q_0j i < 0) :
    x i < 0 ∧ (advance w p 0 none y inp wk c x).j i = 0 := by
  have r := tank_row W hm hx hi hb iso hdt hK hV
  rw [h0, mul_zero, add_zero] at r
  have n : x i < 0 := by
    by_contra h
    have a := mul_nonneg_of_nonpos_of_nonpos hp.le (neg_nonpos.mpr (not_lt.mp h))
    have b := mul_pos hV0 hc
    linarith
  refine ⟨n, ?_⟩
  show limit 0 none (x i) = 0
  unfold limit
  simpa using fun h : 0 ≤ x i => absurd n (not_lt.mpr h)

/-- **C196 (withdrawal of half).** When exactly as much is drawn off as remains, the system has no solution at all. -/
theorem C196_tank_singular (W : Wired w) (hm : CleanMats w wk.mats) {i : ℕ}
    (hi : i < w.M) (hb : w.bc i = false) (iso : Isolated w i) (hdt : 0 < y.dt) (hK : p.Krj i = 0)
    (hV : y.V i = y.V_prev i + y.dt * inp.Q_0j i) (h0 : inp.c_0j i = 0) (hc : 0 < c.j i) (hV0 : 0 < y.V i)
    (hp : y.V i + y.dt * inp.Q_0j i = 0) : ¬ ∃ x, Solved w p y inp wk c x := by
  rintro ⟨x, hx⟩
  have r := tank_row W hm hx hi hb iso hdt hK hV
  rw [h0, hp] at r
  have := mul_pos hV0 hc
  simp at r
  rcases r with h | h <;> linarith

/-- **C196, partial.** What is missing is the default: a caller who prescribes the tank's own concentration for the
withdrawal gets it back, at any size of withdrawal but the one of half the water. -/
theorem C196_tank_partial (W : Wired w) (hm : CleanMats w wk.mats) {x : ℕ → K} (hx : Solved w p y inp wk c x) {i : ℕ}
    (hi : i < w.M) (hb : w.bc i = false) (iso : Isolated w i) (hdt : 0 < y.dt) (hK : p.Krj i = 0)
    (hV : y.V i = y.V_prev i + y.dt * inp.Q_0j i) (h0 : inp.c_0j i = c.j i) (hc : y.V i + y.dt * inp.Q_0j i ≠ 0)
    {lo : K} {hi' : Option K} (hlo : lo ≤ c.j i) (hhi : ∀ q, hi' = some q → c.j i ≤ q) :
    (advance w p lo hi' y inp wk c x).j i = c.j i := by
  have r := tank_row W hm hx hi hb iso hdt hK hV
  rw [h0, ← add_mul] at r
  have e : x i = c.j i := mul_left_cancel₀ hc r
  show limit lo hi' (x i) = _
  rw [e]
  exact limit_eq hlo hhi

end

/-! ### Non-vacuity -/

namespace Draw

/-- One tank, nothing connected. -/
def w : Wiring := { Ex.w with M := 1, n_o := 0, n_w := 0, n_p := 0, bc := fun _ => false, ix := { Ex.w.ix with NK := 0 } }

/-- Two of ten cubic metres are drawn off within one second. -/
def y : Hydro ℚ := { Ex.y with dt := 1, V := fun _ => 8, V_prev := fun _ => 10 }
def inp : Inputs ℚ := { Ex.inp with Q_0j := fun _ => -2, c_0j := fun _ => 0, c_bc := none }

theorem wired : Wired w := by
  refine ⟨⟨?_, ?_, ?_⟩, ?_, ?_, ?_, ?_, ?_, ?_, ?_, ?_, ?_⟩ <;> simp [w]

theorem isolated : Isolated w 0 := by
  constructor <;> simp [w]

theorem clean : CleanMats w Ex.wk.mats := cleanMats_zero w

/-- Concentration 1; the step solves, and returns 4/3 although only water was taken out. -/
example : ∃ x, Solved w Ex.p y inp Ex.wk Ex.c x ∧ (advance w Ex.p 0 none y inp Ex.wk Ex.c x).j 0 = 4 / 3 := by
  have hx : Solved w Ex.p y inp Ex.wk Ex.c (fun _ => 4 / 3) := by
    refine (solved_iff wired clean _ (fun _ => 0) (fun _ => 0)).mpr ⟨fun i hi hb => by simp [w] at hb, fun i hi hb => ?_⟩
    obtain rfl : i = 0 := by simp [w] at hi; exact hi
    rw [superNet_isolated _ _ _ isolated]
    norm_num [CellEq, y, inp, Ex.p, Ex.c, Conc.const]
  refine ⟨_, hx, ?_⟩
  have := (C196_tank_rises (i := 0) wired clean hx (by simp [w]) rfl isolated (by norm_num [y]) rfl (by norm_num [y, inp])
    (by norm_num [inp]) rfl (by norm_num [Ex.c, Conc.const]) (by norm_num [y, inp])).2
  rw [this]
  norm_num [y, inp, Ex.c, Conc.const]

end Draw

end Pipedream.Quality
