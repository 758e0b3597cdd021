import Verif.QualitySigns
import Mathlib.Data.Fintype.Sum
import Mathlib.Data.Fintype.Sigma
import Mathlib.Data.Fintype.Lattice

/-! # Maximum principle for the specified transport equations -/

set_option linter.unusedSectionVars false

namespace Pipedream.Quality

open Pipedream.Network Pipedream.Link Pipedream.Sweep

variable {K : Type*} [Field K] [LinearOrder K] [IsStrictOrderedRing K]

/-- Every concentration of the network is at least `m`. -/
structure AllGe (w : Wiring) (m : K) (c : Conc K) : Prop where
  j : ∀ i, i < w.M → m ≤ c.j i
  I : ∀ k, k < w.ix.NK → ∀ j, j ≤ w.ix.nk k → m ≤ c.I (w.ix.I_1k k + j)
  i : ∀ k, k < w.ix.NK → ∀ j, j < w.ix.nk k → m ≤ c.i (w.ix.i_1k k + j)
  u : ∀ k, k < w.ix.NK → m ≤ c.u k
  d : ∀ k, k < w.ix.NK → m ≤ c.d k

/-- Every concentration of the network is at most `m`. -/
structure AllLe (w : Wiring) (m : K) (c : Conc K) : Prop where
  j : ∀ i, i < w.M → c.j i ≤ m
  I : ∀ k, k < w.ix.NK → ∀ j, j ≤ w.ix.nk k → c.I (w.ix.I_1k k + j) ≤ m
  i : ∀ k, k < w.ix.NK → ∀ j, j < w.ix.nk k → c.i (w.ix.i_1k k + j) ≤ m
  u : ∀ k, k < w.ix.NK → c.u k ≤ m
  d : ∀ k, k < w.ix.NK → c.d k ≤ m

/-- Inflowing water and fixed superjunctions have at least / at most concentration `m`. -/
structure InGe (w : Wiring) (m : K) (inp : Inputs K) (c : Conc K) : Prop where
  bc : ∀ i, i < w.M → w.bc i = true → m ≤ inp.c_bc.getD c.j i
  j : ∀ i, i < w.M → w.bc i = false → inp.Q_0j i * m ≤ inp.Q_0j i * inp.c_0j i
  I : ∀ k, k < w.ix.NK → ∀ j, j ≤ w.ix.nk k →
    inp.Q_0I (w.ix.I_1k k + j) * m ≤ inp.Q_0I (w.ix.I_1k k + j) * inp.c_0I (w.ix.I_1k k + j)

structure InLe (w : Wiring) (m : K) (inp : Inputs K) (c : Conc K) : Prop where
  bc : ∀ i, i < w.M → w.bc i = true → inp.c_bc.getD c.j i ≤ m
  j : ∀ i, i < w.M → w.bc i = false → inp.Q_0j i * inp.c_0j i ≤ inp.Q_0j i * m
  I : ∀ k, k < w.ix.NK → ∀ j, j ≤ w.ix.nk k →
    inp.Q_0I (w.ix.I_1k k + j) * inp.c_0I (w.ix.I_1k k + j) ≤ inp.Q_0I (w.ix.I_1k k + j) * m

/-- Reaction does not move concentrations past `m` (decay towards zero): `K m ≤ 0` everywhere. -/
structure ReactGe (w : Wiring) (m : K) (p : Params K) : Prop where
  j : ∀ i, i < w.M → w.bc i = false → p.Krj i * m ≤ 0
  I : ∀ k, k < w.ix.NK → ∀ j, j ≤ w.ix.nk k → p.KrI (w.ix.I_1k k + j) * m ≤ 0
  i : ∀ k, k < w.ix.NK → ∀ j, j < w.ix.nk k → p.Kr (w.ix.i_1k k + j) * m ≤ 0

structure ReactLe (w : Wiring) (m : K) (p : Params K) : Prop where
  j : ∀ i, i < w.M → w.bc i = false → 0 ≤ p.Krj i * m
  I : ∀ k, k < w.ix.NK → ∀ j, j ≤ w.ix.nk k → 0 ≤ p.KrI (w.ix.I_1k k + j) * m
  i : ∀ k, k < w.ix.NK → ∀ j, j < w.ix.nk k → 0 ≤ p.Kr (w.ix.i_1k k + j) * m

theorem flux_out_le {Q G v b : K} (h : v ≤ b) : flux Q G v b ≤ Q * v - G * (b - v) := by
  unfold flux upwind
  split_ifs with hQ
  · linarith
  · have : Q * b ≤ Q * v := mul_le_mul_of_nonpos_left h (not_lt.mp hQ)
    linarith

theorem flux_in_ge {Q G v a : K} (h : v ≤ a) : Q * v + G * (a - v) ≤ flux Q G a v := by
  unfold flux upwind
  split_ifs with hQ
  · have := mul_le_mul_of_nonneg_left h hQ.le
    linarith
  · linarith

/-- A control volume whose neighbours are not below `v`. -/
theorem cell_lower {dt V V_prev Kr c_prev v net src m Qn Q0 g : K} (h : CellEq dt V V_prev Kr c_prev v net src)
    (hdt : 0 < dt) (hV : 0 ≤ V) (hnet : net ≤ Qn * v - g) (hb : (V - V_prev) / dt + Qn = Q0)
    (hc : m ≤ c_prev) (hs : Q0 * m ≤ src) (hKm : Kr * m ≤ 0) :
    (V / dt + Kr * V + Q0) * m + g ≤ (V / dt + Kr * V + Q0) * v := by
  unfold CellEq at h
  have e : (2 * V - V_prev) / dt = V / dt + (V - V_prev) / dt := by ring
  have e2 : (V - V_prev) / dt = Q0 - Qn := by linarith
  rw [e, e2] at h
  have h1 : V / dt * m ≤ V / dt * c_prev := mul_le_mul_of_nonneg_left hc (div_nonneg hV hdt.le)
  have e3 : V * c_prev / dt = V / dt * c_prev := by ring
  rw [e3] at h
  have h2 : Kr * V * m ≤ 0 := by nlinarith
  nlinarith

theorem cell_lower' {dt V V_prev Kr c_prev v net src m Qn Q0 : K} (h : CellEq dt V V_prev Kr c_prev v net src)
    (hdt : 0 < dt) (hV : 0 < V) (hK : 0 ≤ Kr) (hQ0 : 0 ≤ Q0) (hnet : net ≤ Qn * v)
    (hb : (V - V_prev) / dt + Qn = Q0)
    (hc : m ≤ c_prev) (hs : Q0 * m ≤ src) (hKm : Kr * m ≤ 0) : m ≤ v := by
  have := cell_lower (g := 0) h hdt hV.le (by linarith) hb hc hs hKm
  have hp : 0 < V / dt + Kr * V + Q0 := by positivity
  exact le_of_mul_le_mul_left (by linarith) hp

theorem cond_pos {D A dx : K} (hD : 0 < D) (hA : 0 < A) (hdx : 0 < dx) : 0 < cond D A dx := by
  unfold cond; positivity

section
variable {w : Wiring} {p : Params K} {y : Hydro K} {inp : Inputs K} {c new : Conc K} {m v : K}

theorem link_lower (P : Physical w p y inp) (B : WaterBalance w y inp) (R : ReactGe w m p) (C : AllGe w m c)
    {k : ℕ} (hk : k < w.ix.NK) (T : LinkTransport w p y inp c new k) (N : AllGe w v new) {j : ℕ}
    (hj : j < w.ix.nk k) (e : new.i (w.ix.i_1k k + j) = v) : m ≤ v := by
  have h := T.link j hj
  rw [e] at h
  have g := (cond_pos (P.D k hk j hj) (P.A k hk j hj) (P.dx k hk j hj)).le
  have a := N.I k hk j hj.le
  have b := N.I k hk (j+1) hj
  refine cell_lower' (Qn := y.Q_dn (w.ix.i_1k k + j) - y.Q_up (w.ix.i_1k k + j)) (Q0 := 0) h P.dt
    (mul_pos (P.dx k hk j hj) (P.A k hk j hj)) (P.Kr k hk j hj) le_rfl ?_ ?_ (C.i k hk j hj) (by simp)
    (R.i k hk j hj)
  · have h1 := flux_out_le (Q := y.Q_dn (w.ix.i_1k k + j))
      (G := cond (p.D (w.ix.i_1k k + j)) (y.A (w.ix.i_1k k + j)) (y.dx (w.ix.i_1k k + j))) b
    have h2 := flux_in_ge (Q := y.Q_up (w.ix.i_1k k + j))
      (G := cond (p.D (w.ix.i_1k k + j)) (y.A (w.ix.i_1k k + j)) (y.dx (w.ix.i_1k k + j))) a
    have h3 := mul_nonneg g (sub_nonneg.mpr a)
    have h4 := mul_nonneg g (sub_nonneg.mpr b)
    unfold linkFluxDn linkFluxUp
    linarith
  · have := B.link k hk j hj
    linear_combination this

theorem up_lower (W : Wired w) (P : Physical w p y inp) (B : WaterBalance w y inp) (C : AllGe w m c)
    {k : ℕ} (hk : k < w.ix.NK) (T : LinkTransport w p y inp c new k) (N : AllGe w v new)
    (e : new.u k = v) : m ≤ v := by
  have h := T.up
  rw [e] at h
  have g := (cond_pos (P.Du k hk) (P.Au k hk) (P.dxu k hk)).le
  have b := N.I k hk 0 (by omega)
  have a := N.j _ (W.lu k hk)
  refine cell_lower' (Qn := y.Qu_dn k - y.Qu_up k) (Q0 := 0) h P.dt
    (mul_pos (P.dxu k hk) (P.Au k hk)) le_rfl le_rfl ?_ ?_ (C.u k hk) (by simp) (by simp)
  · have h1 := flux_out_le (Q := y.Qu_dn k) (G := cond (p.D_u k) (y.A_u k) (y.dx_u k)) b
    have h2 := flux_in_ge (Q := y.Qu_up k) (G := cond (p.D_u k) (y.A_u k) (y.dx_u k)) a
    have h3 := mul_nonneg g (sub_nonneg.mpr a)
    have h4 := mul_nonneg g (sub_nonneg.mpr b)
    unfold uFluxDn uFluxUp
    linarith
  · have := B.up k hk
    linear_combination this

theorem dn_lower (W : Wired w) (P : Physical w p y inp) (B : WaterBalance w y inp) (C : AllGe w m c)
    {k : ℕ} (hk : k < w.ix.NK) (T : LinkTransport w p y inp c new k) (N : AllGe w v new)
    (e : new.d k = v) : m ≤ v := by
  have h := T.dn
  rw [e] at h
  have g := (cond_pos (P.Dd k hk) (P.Ad k hk) (P.dxd k hk)).le
  have a := N.I k hk (w.ix.nk k) le_rfl
  have b := N.j _ (W.ld k hk)
  refine cell_lower' (Qn := y.Qd_dn k - y.Qd_up k) (Q0 := 0) h P.dt
    (mul_pos (P.dxd k hk) (P.Ad k hk)) le_rfl le_rfl ?_ ?_ (C.d k hk) (by simp) (by simp)
  · have h1 := flux_out_le (Q := y.Qd_dn k) (G := cond (p.D_d k) (y.A_d k) (y.dx_d k)) b
    have h2 := flux_in_ge (Q := y.Qd_up k) (G := cond (p.D_d k) (y.A_d k) (y.dx_d k)) a
    have h3 := mul_nonneg g (sub_nonneg.mpr a)
    have h4 := mul_nonneg g (sub_nonneg.mpr b)
    unfold dFluxDn dFluxUp
    linarith
  · have := B.dn k hk
    linear_combination this

theorem node_lower (W : Wired w) (P : Physical w p y inp) (B : WaterBalance w y inp) (R : ReactGe w m p)
    (C : AllGe w m c) (Ci : InGe w m inp c) {k : ℕ} (hk : k < w.ix.NK)
    (T : LinkTransport w p y inp c new k) (N : AllGe w v new)
    {j : ℕ} (hj : j ≤ w.ix.nk k) (e : new.I (w.ix.I_1k k + j) = v) : m ≤ v := by
  by_contra hv
  have hv : v < m := not_le.mp hv
  have h := T.node j hj
  rw [e] at h
  -- what comes in is at least the water times `v`
  have hin : nodeQin w y k j * v ≤ nodeIn w p y new k j := by
    unfold nodeQin nodeIn
    rw [e]
    split_ifs with h0
    · have a := N.u k hk
      have h2 := flux_in_ge (Q := y.Qu_dn k) (G := cond (p.D_u k) (y.A_u k) (y.dx_u k)) a
      have h3 := mul_nonneg (cond_pos (P.Du k hk) (P.Au k hk) (P.dxu k hk)).le (sub_nonneg.mpr a)
      unfold uFluxDn; linarith
    · have hj' : j - 1 < w.ix.nk k := by omega
      have a := N.i k hk _ hj'
      have h2 := flux_in_ge (Q := y.Q_dn (w.ix.i_1k k + (j - 1))) (G := cond (p.D (w.ix.i_1k k + (j - 1)))
        (y.A (w.ix.i_1k k + (j - 1))) (y.dx (w.ix.i_1k k + (j - 1)))) a
      have h3 := mul_nonneg (cond_pos (P.D k hk _ hj') (P.A k hk _ hj') (P.dx k hk _ hj')).le (sub_nonneg.mpr a)
      unfold linkFluxDn; linarith
  have hpos : 0 ≤ y.A_S (w.ix.I_1k k + j) * y.h (w.ix.I_1k k + j) / y.dt
      + p.KrI (w.ix.I_1k k + j) * (y.A_S (w.ix.I_1k k + j) * y.h (w.ix.I_1k k + j))
      + inp.Q_0I (w.ix.I_1k k + j) := by
    have h1 := P.AS k hk j hj
    have h2 := P.KrI k hk j hj
    have h3 := P.Q0I k hk j hj
    have := div_nonneg h1 P.dt.le
    have := mul_nonneg h2 h1
    linarith
  have hbal : (y.A_S (w.ix.I_1k k + j) * y.h (w.ix.I_1k k + j)
      - y.A_S (w.ix.I_1k k + j) * y.h_prev (w.ix.I_1k k + j)) / y.dt
      + (nodeQout w y k j - nodeQin w y k j) = inp.Q_0I (w.ix.I_1k k + j) := by
    have := B.node k hk j hj
    linear_combination this
  -- the neighbour downstream has the same value
  by_cases h1 : j = w.ix.nk k
  · have b := N.d k hk
    have hout : nodeOut w p y new k j ≤ nodeQout w y k j * v
        - cond (p.D_d k) (y.A_d k) (y.dx_d k) * (new.d k - v) := by
      unfold nodeOut nodeQout
      rw [if_pos h1, if_pos h1, e]
      exact flux_out_le b
    have key := cell_lower (m := m) (g := cond (p.D_d k) (y.A_d k) (y.dx_d k) * (new.d k - v)) h P.dt
      (P.AS k hk j hj) (by linarith : nodeOut w p y new k j - nodeIn w p y new k j
        ≤ (nodeQout w y k j - nodeQin w y k j) * v - cond (p.D_d k) (y.A_d k) (y.dx_d k) * (new.d k - v))
      hbal (C.I k hk j hj) (Ci.I k hk j hj) (R.I k hk j hj)
    have hg := cond_pos (P.Dd k hk) (P.Ad k hk) (P.dxd k hk)
    have h5 : cond (p.D_d k) (y.A_d k) (y.dx_d k) * (new.d k - v) ≤ 0 := by nlinarith
    have h6 : new.d k = v := by
      have := nonpos_of_mul_nonpos_right h5 hg
      linarith
    exact absurd (dn_lower W P B C hk T N h6) (not_le.mpr hv)
  · have hj' : j < w.ix.nk k := by omega
    have b := N.i k hk j hj'
    have hout : nodeOut w p y new k j ≤ nodeQout w y k j * v
        - cond (p.D (w.ix.i_1k k + j)) (y.A (w.ix.i_1k k + j)) (y.dx (w.ix.i_1k k + j))
          * (new.i (w.ix.i_1k k + j) - v) := by
      unfold nodeOut nodeQout
      rw [if_neg h1, if_neg h1, e]
      exact flux_out_le b
    have key := cell_lower (m := m) (g := cond (p.D (w.ix.i_1k k + j)) (y.A (w.ix.i_1k k + j))
        (y.dx (w.ix.i_1k k + j)) * (new.i (w.ix.i_1k k + j) - v)) h P.dt
      (P.AS k hk j hj) (by linarith : nodeOut w p y new k j - nodeIn w p y new k j
        ≤ (nodeQout w y k j - nodeQin w y k j) * v - cond (p.D (w.ix.i_1k k + j)) (y.A (w.ix.i_1k k + j))
        (y.dx (w.ix.i_1k k + j)) * (new.i (w.ix.i_1k k + j) - v))
      hbal (C.I k hk j hj) (Ci.I k hk j hj) (R.I k hk j hj)
    have hg := cond_pos (P.D k hk j hj') (P.A k hk j hj') (P.dx k hk j hj')
    have h5 : cond (p.D (w.ix.i_1k k + j)) (y.A (w.ix.i_1k k + j))
        (y.dx (w.ix.i_1k k + j)) * (new.i (w.ix.i_1k k + j) - v) ≤ 0 := by nlinarith
    have h6 : new.i (w.ix.i_1k k + j) = v := by
      have := nonpos_of_mul_nonpos_right h5 hg
      linarith
    exact absurd (link_lower P B R C hk T N hj' h6) (not_le.mpr hv)

theorem ctrlNet_le {n : ℕ} {Ju Jd : ℕ → ℕ} {Q cj : ℕ → K} {M i : ℕ} (hu : ∀ k, k < n → Ju k < M)
    (hd : ∀ k, k < n → Jd k < M) (hc : ∀ j, j < M → v ≤ cj j) (hi : cj i = v) :
    ctrlNet n Ju Jd Q cj i ≤ ctrlQ n Ju Jd Q i * v := by
  unfold ctrlNet ctrlQ
  rw [Finset.sum_mul]
  apply Finset.sum_le_sum
  intro k hk
  have hk := Finset.mem_range.mp hk
  have a1 := hc _ (hu k hk)
  have a2 := hc _ (hd k hk)
  by_cases h1 : Ju k = i <;> by_cases h2 : Jd k = i
  · rw [if_pos h1, if_pos h2, if_pos h1, if_pos h2]; linarith
  · rw [if_pos h1, if_neg h2, if_pos h1, if_neg h2, h1, hi]
    have := flux_out_le (Q := Q k) (G := 0) a2
    linarith
  · rw [if_neg h1, if_pos h2, if_neg h1, if_pos h2, h2, hi]
    have := flux_in_ge (Q := Q k) (G := 0) a1
    linarith
  · rw [if_neg h1, if_neg h2, if_neg h1, if_neg h2]; linarith

theorem super_lower (W : Wired w) (P : Physical w p y inp) (B : WaterBalance w y inp) (R : ReactGe w m p)
    (C : AllGe w m c) (Ci : InGe w m inp c) (T : Transport w p y inp c new) (N : AllGe w v new)
    {i : ℕ} (hi : i < w.M) (e : new.j i = v) : m ≤ v := by
  by_cases hb : w.bc i = true
  · rw [← e, T.fixed i hi hb]; exact Ci.bc i hi hb
  · have hb : w.bc i = false := by simpa using hb
    have h := T.super i hi hb
    rw [e] at h
    refine cell_lower' (Qn := superQ w y i) h P.dt (P.V i hi hb) (P.Krj i hi hb) (P.Q0j i hi hb) ?_
      (B.super i hi hb) (C.j i hi) (Ci.j i hi hb) (R.j i hi hb)
    unfold superNet superQ
    rw [add_mul, add_mul, add_mul]
    refine add_le_add (add_le_add (add_le_add ?_ (ctrlNet_le W.ou W.od N.j e)) (ctrlNet_le W.wu W.wd N.j e))
      (ctrlNet_le W.pu W.pd N.j e)
    rw [Finset.sum_mul]
    apply Finset.sum_le_sum
    intro k hk
    have hk := Finset.mem_range.mp hk
    have gu := (cond_pos (P.Du k hk) (P.Au k hk) (P.dxu k hk)).le
    have gd := (cond_pos (P.Dd k hk) (P.Ad k hk) (P.dxd k hk)).le
    have a1 := N.u k hk
    have a2 := N.d k hk
    have h3 := mul_nonneg gu (sub_nonneg.mpr a1)
    have h4 := mul_nonneg gd (sub_nonneg.mpr a2)
    have h5 : (if w.Ju k = i then uFluxUp p y k (new.j (w.Ju k)) (new.u k) else 0)
        ≤ (if w.Ju k = i then y.Qu_up k else 0) * v := by
      split_ifs with h1
      · rw [h1, e]
        have := flux_out_le (Q := y.Qu_up k) (G := cond (p.D_u k) (y.A_u k) (y.dx_u k)) a1
        unfold uFluxUp; linarith
      · simp
    have h6 : (if w.Jd k = i then y.Qd_dn k else 0) * v
        ≤ (if w.Jd k = i then dFluxDn p y k (new.d k) (new.j (w.Jd k)) else 0) := by
      split_ifs with h1
      · rw [h1, e]
        have := flux_in_ge (Q := y.Qd_dn k) (G := cond (p.D_d k) (y.A_d k) (y.dx_d k)) a2
        unfold dFluxDn; linarith
      · simp
    rw [sub_mul]
    linarith

/-- Every concentration of the network has a place in this finite type. -/
abbrev Unknown (w : Wiring) : Type :=
  Fin w.M ⊕ (Σ k : Fin w.ix.NK, Fin (w.ix.nk k + 1)) ⊕ (Σ k : Fin w.ix.NK, Fin (w.ix.nk k))
    ⊕ Fin w.ix.NK ⊕ Fin w.ix.NK

def Unknown.val (w : Wiring) (c : Conc K) : Unknown w → K
  | .inl i => c.j i
  | .inr (.inl ⟨k, j⟩) => c.I (w.ix.I_1k k + j)
  | .inr (.inr (.inl ⟨k, j⟩)) => c.i (w.ix.i_1k k + j)
  | .inr (.inr (.inr (.inl k))) => c.u k
  | .inr (.inr (.inr (.inr k))) => c.d k

/-- A solution of the transport equations is nowhere below the data. -/
theorem transport_lower (W : Wired w) (P : Physical w p y inp) (B : WaterBalance w y inp) (R : ReactGe w m p)
    (C : AllGe w m c) (Ci : InGe w m inp c) (T : Transport w p y inp c new) : AllGe w m new := by
  rcases isEmpty_or_nonempty (Unknown w) with hE | hN
  · refine ⟨fun i hi => ?_, fun k hk j hj => ?_, fun k hk j hj => ?_, fun k hk => ?_, fun k hk => ?_⟩
    · exact hE.elim (.inl ⟨i, hi⟩)
    · exact hE.elim (.inr (.inl ⟨⟨k, hk⟩, ⟨j, by simpa using Nat.lt_succ_of_le hj⟩⟩))
    · exact hE.elim (.inr (.inr (.inl ⟨⟨k, hk⟩, ⟨j, hj⟩⟩)))
    · exact hE.elim (.inr (.inr (.inr (.inl ⟨k, hk⟩))))
    · exact hE.elim (.inr (.inr (.inr (.inr ⟨k, hk⟩))))
  · obtain ⟨a, ha⟩ := Finite.exists_min (Unknown.val w new)
    have N : AllGe w (Unknown.val w new a) new := by
      refine ⟨fun i hi => ?_, fun k hk j hj => ?_, fun k hk j hj => ?_, fun k hk => ?_, fun k hk => ?_⟩
      · exact ha (.inl ⟨i, hi⟩)
      · exact ha (.inr (.inl ⟨⟨k, hk⟩, ⟨j, by simpa using Nat.lt_succ_of_le hj⟩⟩))
      · exact ha (.inr (.inr (.inl ⟨⟨k, hk⟩, ⟨j, hj⟩⟩)))
      · exact ha (.inr (.inr (.inr (.inl ⟨k, hk⟩))))
      · exact ha (.inr (.inr (.inr (.inr ⟨k, hk⟩))))
    have hm : m ≤ Unknown.val w new a := by
      rcases a with i | ⟨k, j⟩ | ⟨k, j⟩ | k | k
      · exact super_lower W P B R C Ci T N i.2 rfl
      · exact node_lower W P B R C Ci k.2 (T.links k k.2) N (Nat.lt_succ_iff.mp j.2) rfl
      · exact link_lower P B R C k.2 (T.links k k.2) N j.2 rfl
      · exact up_lower W P B C k.2 (T.links k k.2) N rfl
      · exact dn_lower W P B C k.2 (T.links k k.2) N rfl
    exact ⟨fun i hi => hm.trans (N.j i hi), fun k hk j hj => hm.trans (N.I k hk j hj),
      fun k hk j hj => hm.trans (N.i k hk j hj), fun k hk => hm.trans (N.u k hk),
      fun k hk => hm.trans (N.d k hk)⟩

end

/-! ### Linearity -/

/-- `s·a + t·b`. -/
def Conc.comb (s t : K) (a b : Conc K) : Conc K where
  j i := s * a.j i + t * b.j i
  I i := s * a.I i + t * b.I i
  i i := s * a.i i + t * b.i i
  u i := s * a.u i + t * b.u i
  d i := s * a.d i + t * b.d i

theorem flux_comb (s t Q G a b a' b' : K) :
    flux Q G (s * a + t * a') (s * b + t * b') = s * flux Q G a b + t * flux Q G a' b' := by
  unfold flux upwind; split_ifs <;> ring

theorem cellEq_comb {s t dt V V_prev Kr c1 v1 n1 s1 c2 v2 n2 s2 : K} (h1 : CellEq dt V V_prev Kr c1 v1 n1 s1)
    (h2 : CellEq dt V V_prev Kr c2 v2 n2 s2) :
    CellEq dt V V_prev Kr (s * c1 + t * c2) (s * v1 + t * v2) (s * n1 + t * n2) (s * s1 + t * s2) := by
  unfold CellEq at *
  linear_combination s * h1 + t * h2

section
variable {w : Wiring} {p : Params K} {y : Hydro K}

theorem ctrlNet_comb (s t : K) (n : ℕ) (Ju Jd : ℕ → ℕ) (Q a b : ℕ → K) (i : ℕ) :
    ctrlNet n Ju Jd Q (fun i => s * a i + t * b i) i
      = s * ctrlNet n Ju Jd Q a i + t * ctrlNet n Ju Jd Q b i := by
  unfold ctrlNet
  rw [Finset.mul_sum, Finset.mul_sum, ← Finset.sum_add_distrib]
  apply Finset.sum_congr rfl
  intro k _
  rw [flux_comb]
  split_ifs <;> ring

theorem nodeOut_comb (s t : K) (a b : Conc K) (k j : ℕ) :
    nodeOut w p y (Conc.comb s t a b) k j = s * nodeOut w p y a k j + t * nodeOut w p y b k j := by
  unfold nodeOut dFluxUp linkFluxUp Conc.comb
  split_ifs <;> exact flux_comb ..

theorem nodeIn_comb (s t : K) (a b : Conc K) (k j : ℕ) :
    nodeIn w p y (Conc.comb s t a b) k j = s * nodeIn w p y a k j + t * nodeIn w p y b k j := by
  unfold nodeIn uFluxDn linkFluxDn Conc.comb
  split_ifs <;> exact flux_comb ..

theorem superNet_comb (s t : K) (a b : Conc K) (i : ℕ) :
    superNet w p y (Conc.comb s t a b) i = s * superNet w p y a i + t * superNet w p y b i := by
  have e : ∑ k ∈ Finset.range w.ix.NK, ((if w.Ju k = i then uFluxUp p y k ((Conc.comb s t a b).j (w.Ju k))
        ((Conc.comb s t a b).u k) else 0)
      - (if w.Jd k = i then dFluxDn p y k ((Conc.comb s t a b).d k) ((Conc.comb s t a b).j (w.Jd k)) else 0))
      = s * (∑ k ∈ Finset.range w.ix.NK, ((if w.Ju k = i then uFluxUp p y k (a.j (w.Ju k)) (a.u k) else 0)
        - (if w.Jd k = i then dFluxDn p y k (a.d k) (a.j (w.Jd k)) else 0)))
      + t * (∑ k ∈ Finset.range w.ix.NK, ((if w.Ju k = i then uFluxUp p y k (b.j (w.Ju k)) (b.u k) else 0)
        - (if w.Jd k = i then dFluxDn p y k (b.d k) (b.j (w.Jd k)) else 0))) := by
    rw [Finset.mul_sum, Finset.mul_sum, ← Finset.sum_add_distrib]
    apply Finset.sum_congr rfl
    intro k _
    unfold uFluxUp dFluxDn Conc.comb
    rw [flux_comb, flux_comb]
    split_ifs <;> ring
  unfold superNet
  rw [e]
  simp only [Conc.comb, ctrlNet_comb]
  ring

/-- Inputs with combined concentrations and the flows of the first. -/
def Inputs.comb (s t : K) (i1 i2 : Inputs K) (c1 c2 : Conc K) : Inputs K where
  c_bc := some fun i => s * i1.c_bc.getD c1.j i + t * i2.c_bc.getD c2.j i
  c_0j i := s * i1.c_0j i + t * i2.c_0j i
  Q_0j := i1.Q_0j
  c_0I i := s * i1.c_0I i + t * i2.c_0I i
  Q_0I := i1.Q_0I

/-- Superposition: the transport equations are linear in the concentrations. -/
theorem transport_comb {i1 i2 : Inputs K} {c1 c2 n1 n2 : Conc K} (s t : K) (hj : i2.Q_0j = i1.Q_0j)
    (hI : i2.Q_0I = i1.Q_0I) (T1 : Transport w p y i1 c1 n1) (T2 : Transport w p y i2 c2 n2) :
    Transport w p y (i1.comb s t i2 c1 c2) (c1.comb s t c2) (n1.comb s t n2) := by
  refine ⟨fun k hk => ?_, fun i hi hb => ?_, fun i hi hb => ?_⟩
  · have a := T1.links k hk
    have b := T2.links k hk
    refine ⟨fun j hj' => ?_, fun j hj' => ?_, ?_, ?_⟩
    · have := cellEq_comb (s := s) (t := t) (a.link j hj') (b.link j hj')
      unfold linkFluxDn linkFluxUp at *
      simp only [Conc.comb, flux_comb]
      convert this using 1 <;> ring
    · have := cellEq_comb (s := s) (t := t) (a.node j hj') (b.node j hj')
      rw [hI] at this
      rw [nodeOut_comb, nodeIn_comb]
      simp only [Conc.comb, Inputs.comb]
      convert this using 1 <;> ring
    · have := cellEq_comb (s := s) (t := t) a.up b.up
      unfold uFluxDn uFluxUp at *
      simp only [Conc.comb, flux_comb]
      convert this using 1 <;> ring
    · have := cellEq_comb (s := s) (t := t) a.dn b.dn
      unfold dFluxDn dFluxUp at *
      simp only [Conc.comb, flux_comb]
      convert this using 1 <;> ring
  · simp only [Conc.comb, Inputs.comb, Option.getD_some]
    rw [T1.fixed i hi hb, T2.fixed i hi hb]
  · have := cellEq_comb (s := s) (t := t) (T1.super i hi hb) (T2.super i hi hb)
    rw [hj] at this
    rw [superNet_comb]
    simp only [Conc.comb, Inputs.comb]
    convert this using 1; ring

end

section
variable {w : Wiring} {p : Params K} {y : Hydro K} {inp : Inputs K} {c new : Conc K} {m : K}

/-- A solution of the transport equations is nowhere above the data. -/
theorem transport_upper (W : Wired w) (P : Physical w p y inp) (B : WaterBalance w y inp) (R : ReactLe w m p)
    (C : AllLe w m c) (Ci : InLe w m inp c) (T : Transport w p y inp c new) : AllLe w m new := by
  have T' := transport_comb (-1) 0 rfl rfl T T
  have P' : Physical w p y (inp.comb (-1) 0 inp c c) :=
    ⟨P.dt, P.dx, P.A, P.D, P.Kr, P.AS, P.KrI, P.Q0I, P.dxu, P.Au, P.Du, P.dxd, P.Ad, P.Dd, P.V, P.Krj, P.Q0j⟩
  have B' : WaterBalance w y (inp.comb (-1) 0 inp c c) := ⟨B.link, B.node, B.up, B.dn, B.super⟩
  have := transport_lower (m := -m) W P' B'
    ⟨fun i hi hb => by have := R.j i hi hb; linarith, fun k hk j hj => by have := R.I k hk j hj; linarith,
      fun k hk j hj => by have := R.i k hk j hj; linarith⟩
    (⟨fun i hi => by have := C.j i hi; simp only [Conc.comb]; linarith,
      fun k hk j hj => by have := C.I k hk j hj; simp only [Conc.comb]; linarith,
      fun k hk j hj => by have := C.i k hk j hj; simp only [Conc.comb]; linarith,
      fun k hk => by have := C.u k hk; simp only [Conc.comb]; linarith,
      fun k hk => by have := C.d k hk; simp only [Conc.comb]; linarith⟩ : AllGe w (-m) (c.comb (-1) 0 c))
    ⟨fun i hi hb => by have := Ci.bc i hi hb; simp only [Inputs.comb, Option.getD_some]; linarith,
      fun i hi hb => by have := Ci.j i hi hb; simp only [Inputs.comb]; linarith,
      fun k hk j hj => by have := Ci.I k hk j hj; simp only [Inputs.comb]; linarith⟩ T'
  exact ⟨fun i hi => by have := this.j i hi; simp only [Conc.comb] at this; linarith,
      fun k hk j hj => by have := this.I k hk j hj; simp only [Conc.comb] at this; linarith,
      fun k hk j hj => by have := this.i k hk j hj; simp only [Conc.comb] at this; linarith,
      fun k hk => by have := this.u k hk; simp only [Conc.comb] at this; linarith,
      fun k hk => by have := this.d k hk; simp only [Conc.comb] at this; linarith⟩

/-- Two solutions of the same transport equations agree everywhere in the network. -/
theorem transport_unique (W : Wired w) (P : Physical w p y inp) (B : WaterBalance w y inp) {n1 n2 : Conc K}
    (T1 : Transport w p y inp c n1) (T2 : Transport w p y inp c n2) :
    (∀ i, i < w.M → n1.j i = n2.j i) ∧
    ∀ k, k < w.ix.NK → (∀ j, j ≤ w.ix.nk k → n1.I (w.ix.I_1k k + j) = n2.I (w.ix.I_1k k + j)) ∧
      (∀ j, j < w.ix.nk k → n1.i (w.ix.i_1k k + j) = n2.i (w.ix.i_1k k + j)) ∧
      n1.u k = n2.u k ∧ n1.d k = n2.d k := by
  have key : ∀ {n1 n2 : Conc K}, Transport w p y inp c n1 → Transport w p y inp c n2 →
      AllGe w 0 (n1.comb 1 (-1) n2) := by
    intro n1 n2 T1 T2
    have T' := transport_comb 1 (-1) rfl rfl T1 T2
    have P' : Physical w p y (inp.comb 1 (-1) inp c c) :=
      ⟨P.dt, P.dx, P.A, P.D, P.Kr, P.AS, P.KrI, P.Q0I, P.dxu, P.Au, P.Du, P.dxd, P.Ad, P.Dd, P.V, P.Krj, P.Q0j⟩
    have B' : WaterBalance w y (inp.comb 1 (-1) inp c c) := ⟨B.link, B.node, B.up, B.dn, B.super⟩
    refine transport_lower W P' B' ⟨?_, ?_, ?_⟩ ⟨?_, ?_, ?_, ?_, ?_⟩ ⟨?_, ?_, ?_⟩ T'
    all_goals intros; simp [Conc.comb, Inputs.comb]
  have a := key T1 T2
  have b := key T2 T1
  refine ⟨fun i hi => ?_, fun k hk => ⟨fun j hj => ?_, fun j hj => ?_, ?_, ?_⟩⟩
  · have h1 := a.j i hi; have h2 := b.j i hi; simp only [Conc.comb] at h1 h2; linarith
  · have h1 := a.I k hk j hj; have h2 := b.I k hk j hj; simp only [Conc.comb] at h1 h2; linarith
  · have h1 := a.i k hk j hj; have h2 := b.i k hk j hj; simp only [Conc.comb] at h1 h2; linarith
  · have h1 := a.u k hk; have h2 := b.u k hk; simp only [Conc.comb] at h1 h2; linarith
  · have h1 := a.d k hk; have h2 := b.d k hk; simp only [Conc.comb] at h1 h2; linarith

end

end Pipedream.Quality
