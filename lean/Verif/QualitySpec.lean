import Verif.QualityAlgebra
import Verif.LinkProps
import Verif.NetworkProps

/-!
# Specification of the transport step

Written with control volumes and face fluxes, without the coefficients of the code. A face carries
`Q` times the concentration of the side the water comes from plus `2 D A / dx` times the drop of
concentration. Every control volume (link, end stretch, junction, superjunction) obeys
`(2V - V_prev)/dt · c + K V c + out - in = V c_prev / dt + source`.
-/

set_option linter.unusedSectionVars false

namespace Pipedream.Quality

open Pipedream.Network Pipedream.Link Pipedream.Sweep

variable {K : Type*} [Field K] [LinearOrder K]

/-- Concentration of the water crossing a face with flow `Q` from left to right. -/
def upwind (Q cL cR : K) : K := if 0 < Q then cL else cR

/-- Contaminant per time crossing a face from left to right. -/
def flux (Q G cL cR : K) : K := Q * upwind Q cL cR + G * (cL - cR)

/-- Dispersive conductance of half a cell. -/
def cond (D A dx : K) : K := 2 * D * A / dx

/-- Balance of a control volume as the code discretises it: `net` is what leaves through the faces. -/
def CellEq (dt V V_prev Kr c_prev c net src : K) : Prop :=
  (2 * V - V_prev) / dt * c + Kr * V * c + net = V * c_prev / dt + src

section
variable (w : Wiring) (p : Params K) (y : Hydro K) (inp : Inputs K) (c : Conc K)

/-- Flux across the upstream / downstream face of link `i` between junctions with values `a`, `b`. -/
def linkFluxUp (i : ℕ) (a b : K) : K := flux (y.Q_up i) (cond (p.D i) (y.A i) (y.dx i)) a b
def linkFluxDn (i : ℕ) (a b : K) : K := flux (y.Q_dn i) (cond (p.D i) (y.A i) (y.dx i)) a b
/-- Faces of the upstream end stretch of superlink `k`. -/
def uFluxUp (k : ℕ) (a b : K) : K := flux (y.Qu_up k) (cond (p.D_u k) (y.A_u k) (y.dx_u k)) a b
def uFluxDn (k : ℕ) (a b : K) : K := flux (y.Qu_dn k) (cond (p.D_u k) (y.A_u k) (y.dx_u k)) a b
/-- Faces of the downstream end stretch of superlink `k`. -/
def dFluxUp (k : ℕ) (a b : K) : K := flux (y.Qd_up k) (cond (p.D_d k) (y.A_d k) (y.dx_d k)) a b
def dFluxDn (k : ℕ) (a b : K) : K := flux (y.Qd_dn k) (cond (p.D_d k) (y.A_d k) (y.dx_d k)) a b

/-- What leaves junction `j` of superlink `k` downstream. -/
def nodeOut (new : Conc K) (k j : ℕ) : K :=
  if j = w.ix.nk k then dFluxUp p y k (new.I (w.ix.I_1k k + j)) (new.d k)
  else linkFluxUp p y (w.ix.i_1k k + j) (new.I (w.ix.I_1k k + j)) (new.i (w.ix.i_1k k + j))

/-- What enters junction `j` of superlink `k` from upstream. -/
def nodeIn (new : Conc K) (k j : ℕ) : K :=
  if j = 0 then uFluxDn p y k (new.u k) (new.I (w.ix.I_1k k + j))
  else linkFluxDn p y (w.ix.i_1k k + (j - 1)) (new.i (w.ix.i_1k k + (j - 1))) (new.I (w.ix.I_1k k + j))

/-- Contaminant carried by controls out of superjunction `i`, net. -/
def ctrlNet (n : ℕ) (Ju Jd : ℕ → ℕ) (Q : ℕ → K) (cj : ℕ → K) (i : ℕ) : K :=
  ∑ m ∈ Finset.range n, ((if Ju m = i then flux (Q m) 0 (cj (Ju m)) (cj (Jd m)) else 0)
    - (if Jd m = i then flux (Q m) 0 (cj (Ju m)) (cj (Jd m)) else 0))

/-- Contaminant leaving superjunction `i` through superlinks and controls, net. -/
def superNet (new : Conc K) (i : ℕ) : K :=
  ∑ k ∈ Finset.range w.ix.NK, ((if w.Ju k = i then uFluxUp p y k (new.j (w.Ju k)) (new.u k) else 0)
    - (if w.Jd k = i then dFluxDn p y k (new.d k) (new.j (w.Jd k)) else 0))
  + ctrlNet w.n_o w.Juo w.Jdo y.Qo new.j i + ctrlNet w.n_w w.Juw w.Jdw y.Qw new.j i
  + ctrlNet w.n_p w.Jup w.Jdp y.Qp new.j i

/-- The transport equations of superlink `k` (specification). -/
structure LinkTransport (new : Conc K) (k : ℕ) : Prop where
  link : ∀ j, j < w.ix.nk k → CellEq y.dt (y.dx (w.ix.i_1k k + j) * y.A (w.ix.i_1k k + j))
    (y.dx (w.ix.i_1k k + j) * y.A_prev (w.ix.i_1k k + j)) (p.Kr (w.ix.i_1k k + j))
    (c.i (w.ix.i_1k k + j)) (new.i (w.ix.i_1k k + j))
    (linkFluxDn p y (w.ix.i_1k k + j) (new.i (w.ix.i_1k k + j)) (new.I (w.ix.I_1k k + (j + 1)))
      - linkFluxUp p y (w.ix.i_1k k + j) (new.I (w.ix.I_1k k + j)) (new.i (w.ix.i_1k k + j))) 0
  node : ∀ j, j ≤ w.ix.nk k → CellEq y.dt (y.A_S (w.ix.I_1k k + j) * y.h (w.ix.I_1k k + j))
    (y.A_S (w.ix.I_1k k + j) * y.h_prev (w.ix.I_1k k + j)) (p.KrI (w.ix.I_1k k + j))
    (c.I (w.ix.I_1k k + j)) (new.I (w.ix.I_1k k + j))
    (nodeOut w p y new k j - nodeIn w p y new k j)
    (inp.Q_0I (w.ix.I_1k k + j) * inp.c_0I (w.ix.I_1k k + j))
  up : CellEq y.dt (y.dx_u k * y.A_u k) (y.dx_u k * y.A_u_prev k) 0 (c.u k) (new.u k)
    (uFluxDn p y k (new.u k) (new.I (w.ix.I_1k k + 0)) - uFluxUp p y k (new.j (w.Ju k)) (new.u k)) 0
  dn : CellEq y.dt (y.dx_d k * y.A_d k) (y.dx_d k * y.A_d_prev k) 0 (c.d k) (new.d k)
    (dFluxDn p y k (new.d k) (new.j (w.Jd k))
      - dFluxUp p y k (new.I (w.ix.I_1k k + w.ix.nk k)) (new.d k)) 0

/-- The transport equations of the whole network (specification). -/
structure Transport (new : Conc K) : Prop where
  links : ∀ k, k < w.ix.NK → LinkTransport w p y inp c new k
  fixed : ∀ i, i < w.M → w.bc i = true → new.j i = inp.c_bc.getD c.j i
  super : ∀ i, i < w.M → w.bc i = false →
    CellEq y.dt (y.V i) (y.V_prev i) (p.Krj i) (c.j i) (new.j i) (superNet w p y new i)
      (inp.Q_0j i * inp.c_0j i)

/-- Water leaving junction `j` of superlink `k` downstream / entering from upstream. -/
def nodeQout (k j : ℕ) : K := if j = w.ix.nk k then y.Qd_up k else y.Q_up (w.ix.i_1k k + j)
def nodeQin (k j : ℕ) : K := if j = 0 then y.Qu_dn k else y.Q_dn (w.ix.i_1k k + (j - 1))

/-- Water carried by controls out of superjunction `i`, net. -/
def ctrlQ (n : ℕ) (Ju Jd : ℕ → ℕ) (Q : ℕ → K) (i : ℕ) : K :=
  ∑ m ∈ Finset.range n, ((if Ju m = i then Q m else 0) - (if Jd m = i then Q m else 0))

/-- Water leaving superjunction `i`, net. -/
def superQ (i : ℕ) : K :=
  ∑ k ∈ Finset.range w.ix.NK, ((if w.Ju k = i then y.Qu_up k else 0) - (if w.Jd k = i then y.Qd_dn k else 0))
  + ctrlQ w.n_o w.Juo w.Jdo y.Qo i + ctrlQ w.n_w w.Juw w.Jdw y.Qw i + ctrlQ w.n_p w.Jup w.Jdp y.Qp i

/-- The imported hydraulic states balance water in every control volume (specification). -/
structure WaterBalance : Prop where
  link : ∀ k, k < w.ix.NK → ∀ j, j < w.ix.nk k →
    y.dx (w.ix.i_1k k + j) * (y.A (w.ix.i_1k k + j) - y.A_prev (w.ix.i_1k k + j)) / y.dt
      + y.Q_dn (w.ix.i_1k k + j) - y.Q_up (w.ix.i_1k k + j) = 0
  node : ∀ k, k < w.ix.NK → ∀ j, j ≤ w.ix.nk k →
    y.A_S (w.ix.I_1k k + j) * (y.h (w.ix.I_1k k + j) - y.h_prev (w.ix.I_1k k + j)) / y.dt
      + nodeQout w y k j - nodeQin w y k j = inp.Q_0I (w.ix.I_1k k + j)
  up : ∀ k, k < w.ix.NK → y.dx_u k * (y.A_u k - y.A_u_prev k) / y.dt + y.Qu_dn k - y.Qu_up k = 0
  dn : ∀ k, k < w.ix.NK → y.dx_d k * (y.A_d k - y.A_d_prev k) / y.dt + y.Qd_dn k - y.Qd_up k = 0
  super : ∀ i, i < w.M → w.bc i = false →
    (y.V i - y.V_prev i) / y.dt + superQ w y i = inp.Q_0j i

/-- Indices: every superlink has its own contiguous links and junctions; ends are superjunctions. -/
structure Wired : Prop where
  layout : Layout w.ix.NK w.ix.nk w.ix.I_1k w.ix.i_1k
  nodes : ∀ k, k < w.ix.NK → NodeIdxSpec w.nix (w.ix.nk k) (w.ix.I_1k k) (w.ix.i_1k k) k
  lu : ∀ k, k < w.ix.NK → w.Ju k < w.M
  ld : ∀ k, k < w.ix.NK → w.Jd k < w.M
  ou : ∀ k, k < w.n_o → w.Juo k < w.M
  od : ∀ k, k < w.n_o → w.Jdo k < w.M
  wu : ∀ k, k < w.n_w → w.Juw k < w.M
  wd : ∀ k, k < w.n_w → w.Jdw k < w.M
  pu : ∀ k, k < w.n_p → w.Jup k < w.M
  pd : ∀ k, k < w.n_p → w.Jdp k < w.M

/-- Physical data: positive time step, lengths, areas and dispersion; non-negative junction volumes,
positive volumes of free superjunctions; inflows are inflows. -/
structure Physical : Prop where
  dt : 0 < y.dt
  dx : ∀ k, k < w.ix.NK → ∀ j, j < w.ix.nk k → 0 < y.dx (w.ix.i_1k k + j)
  A : ∀ k, k < w.ix.NK → ∀ j, j < w.ix.nk k → 0 < y.A (w.ix.i_1k k + j)
  D : ∀ k, k < w.ix.NK → ∀ j, j < w.ix.nk k → 0 < p.D (w.ix.i_1k k + j)
  Kr : ∀ k, k < w.ix.NK → ∀ j, j < w.ix.nk k → 0 ≤ p.Kr (w.ix.i_1k k + j)
  AS : ∀ k, k < w.ix.NK → ∀ j, j ≤ w.ix.nk k → 0 ≤ y.A_S (w.ix.I_1k k + j) * y.h (w.ix.I_1k k + j)
  KrI : ∀ k, k < w.ix.NK → ∀ j, j ≤ w.ix.nk k → 0 ≤ p.KrI (w.ix.I_1k k + j)
  Q0I : ∀ k, k < w.ix.NK → ∀ j, j ≤ w.ix.nk k → 0 ≤ inp.Q_0I (w.ix.I_1k k + j)
  dxu : ∀ k, k < w.ix.NK → 0 < y.dx_u k
  Au : ∀ k, k < w.ix.NK → 0 < y.A_u k
  Du : ∀ k, k < w.ix.NK → 0 < p.D_u k
  dxd : ∀ k, k < w.ix.NK → 0 < y.dx_d k
  Ad : ∀ k, k < w.ix.NK → 0 < y.A_d k
  Dd : ∀ k, k < w.ix.NK → 0 < p.D_d k
  V : ∀ i, i < w.M → w.bc i = false → 0 < y.V i
  Krj : ∀ i, i < w.M → w.bc i = false → 0 ≤ p.Krj i
  Q0j : ∀ i, i < w.M → w.bc i = false → 0 ≤ inp.Q_0j i

end

/-! ### The coefficients of the code mean the specification -/

theorem linkEq_iff (Q_up Q_dn D A A_prev dx dt Kr c_prev a x b : K) :
    alphaIk Q_up (omegaGt Q_up) dx D A * a
      + betaIk dt D A A_prev dx Kr Q_up Q_dn (omegaGt Q_up) (omegaGt Q_dn) * x
      + chiIk Q_dn (omegaGt Q_dn) dx D A * b = gammaIk dt c_prev A dx
    ↔ CellEq dt (dx * A) (dx * A_prev) Kr c_prev x
        (flux Q_dn (cond D A dx) x b - flux Q_up (cond D A dx) a x) 0 := by
  have e : alphaIk Q_up (omegaGt Q_up) dx D A * a
      + betaIk dt D A A_prev dx Kr Q_up Q_dn (omegaGt Q_up) (omegaGt Q_dn) * x
      + chiIk Q_dn (omegaGt Q_dn) dx D A * b - gammaIk dt c_prev A dx
      = ((2 * (dx * A) - dx * A_prev) / dt * x + Kr * (dx * A) * x
        + (flux Q_dn (cond D A dx) x b - flux Q_up (cond D A dx) a x)) - (dx * A * c_prev / dt + 0) := by
    unfold alphaIk betaIk chiIk gammaIk flux cond upwind omegaGt
    split_ifs <;> ring
  unfold CellEq
  rw [← sub_eq_zero, e, sub_eq_zero]

theorem nodeEq_iff (A_S h h_prev Q_up Q_im1 dt Kr D D_im1 A A_im1 dx dx_im1 c0 Q0 c_prev a x b : K) :
    kappaIk Q_im1 (omegaGt Q_im1) D_im1 A_im1 dx_im1 * a
      + lambdaIk A_S h h_prev Q_up Q_im1 (omegaGt Q_up) (omegaGt Q_im1) dt Kr D D_im1 A A_im1 dx dx_im1 * x
      + muIk Q_up (omegaGt Q_up) D A dx * b = etaIk c0 Q0 A_S h c_prev dt
    ↔ CellEq dt (A_S * h) (A_S * h_prev) Kr c_prev x
        (flux Q_up (cond D A dx) x b - flux Q_im1 (cond D_im1 A_im1 dx_im1) a x) (Q0 * c0) := by
  have e : kappaIk Q_im1 (omegaGt Q_im1) D_im1 A_im1 dx_im1 * a
      + lambdaIk A_S h h_prev Q_up Q_im1 (omegaGt Q_up) (omegaGt Q_im1) dt Kr D D_im1 A A_im1 dx dx_im1 * x
      + muIk Q_up (omegaGt Q_up) D A dx * b - etaIk c0 Q0 A_S h c_prev dt
      = ((2 * (A_S * h) - A_S * h_prev) / dt * x + Kr * (A_S * h) * x
        + (flux Q_up (cond D A dx) x b - flux Q_im1 (cond D_im1 A_im1 dx_im1) a x))
        - (A_S * h * c_prev / dt + Q0 * c0) := by
    unfold kappaIk lambdaIk muIk etaIk flux cond upwind omegaGt
    split_ifs <;> ring
  unfold CellEq
  rw [← sub_eq_zero, e, sub_eq_zero]

/-- The equation assembled for junction `j` of superlink `k`, at the start, the end or inside. -/
theorem nodeEq_at {w : Wiring} {p : Params K} {y : Hydro K} {inp : Inputs K} {c new : Conc K}
    {k : ℕ} (hk : k < w.ix.NK) (W : Wired w) {j : ℕ} (hj : j ≤ w.ix.nk k) :
    (stepCoef w p y inp c).kappa (w.ix.I_1k k + j)
        * (if j = 0 then new.u k else new.i (w.ix.i_1k k + (j - 1)))
      + (stepCoef w p y inp c).lam (w.ix.I_1k k + j) * new.I (w.ix.I_1k k + j)
      + (stepCoef w p y inp c).mu (w.ix.I_1k k + j)
        * (if j = w.ix.nk k then new.d k else new.i (w.ix.i_1k k + j))
      = (stepCoef w p y inp c).eta (w.ix.I_1k k + j) ↔
    CellEq y.dt (y.A_S (w.ix.I_1k k + j) * y.h (w.ix.I_1k k + j))
      (y.A_S (w.ix.I_1k k + j) * y.h_prev (w.ix.I_1k k + j)) (p.KrI (w.ix.I_1k k + j))
      (c.I (w.ix.I_1k k + j)) (new.I (w.ix.I_1k k + j))
      (nodeOut w p y new k j - nodeIn w p y new k j)
      (inp.Q_0I (w.ix.I_1k k + j) * inp.c_0I (w.ix.I_1k k + j)) := by
  have S := W.nodes k hk
  have hn := W.layout.pos k hk
  have kk := S.kI j hj
  by_cases h0 : j = 0
  · have hs : w.nix.isStart (w.ix.I_1k k + j) = true := (S.start j hj).2 h0
    have hf := S.fwd j (by omega)
    have hn0 : ¬ j = w.ix.nk k := by omega
    simp only [stepCoef, coeffs, hs, if_true, hf, kk, nodeOut, nodeIn, hn0, if_false]
    rw [if_pos h0, if_pos h0]
    exact nodeEq_iff ..
  · have hs : w.nix.isStart (w.ix.I_1k k + j) = false := by
      rw [Bool.eq_false_iff]; exact fun h => h0 ((S.start j hj).1 h)
    by_cases h1 : j = w.ix.nk k
    · have he : w.nix.isEnd (w.ix.I_1k k + j) = true := (S.fin j hj).2 h1
      have hb : w.nix.bwd (w.ix.I_1k k + j) = w.ix.i_1k k + (j - 1) := by
        rw [h1, S.bwd]; omega
      simp only [stepCoef, coeffs, hs, he, if_true, Bool.false_eq_true, if_false, hb, kk, nodeOut, nodeIn, h0]
      rw [if_pos h1, if_pos h1]
      exact nodeEq_iff ..
    · have he : w.nix.isEnd (w.ix.I_1k k + j) = false := by
        rw [Bool.eq_false_iff]; exact fun h => h1 ((S.fin j hj).1 h)
      have hf := S.fwd j (by omega)
      have e : w.ix.i_1k k + j - 1 = w.ix.i_1k k + (j - 1) := by omega
      simp only [stepCoef, coeffs, hs, he, Bool.false_eq_true, if_false, hf, e, nodeOut, nodeIn, h0, h1]
      exact nodeEq_iff ..

/-- The equations assembled for superlink `k` are the specified transport equations. -/
theorem linkTransport_iff {w : Wiring} {p : Params K} {y : Hydro K} {inp : Inputs K} {c new : Conc K}
    {k : ℕ} (hk : k < w.ix.NK) (W : Wired w) :
    LinkTransport w p y inp c new k ↔
      Interior ((stepCoef w p y inp c).slice (w.ix.i_1k k) (w.ix.I_1k k)) (w.ix.nk k)
        (fun j => new.I (w.ix.I_1k k + j)) (fun j => new.i (w.ix.i_1k k + j)) ∧
      EndEqs ((stepCoef w p y inp c).slice (w.ix.i_1k k) (w.ix.I_1k k)) (endCoeffs p y c k) (w.ix.nk k)
        (fun j => new.I (w.ix.I_1k k + j)) (fun j => new.i (w.ix.i_1k k + j)) (new.u k) (new.d k)
        (new.j (w.Ju k)) (new.j (w.Jd k)) := by
  have hn := W.layout.pos k hk
  constructor
  · intro T
    refine ⟨⟨fun j hj => ?_, fun j hj => ?_⟩, ⟨?_, ?_, ?_, ?_⟩⟩
    · exact (linkEq_iff ..).mpr (T.link j hj)
    · have h := (nodeEq_at hk W (by omega)).mpr (T.node (j+1) (by omega))
      rw [if_neg (by omega), if_neg (by omega), Nat.add_sub_cancel] at h
      exact h
    · have h := (nodeEq_at hk W (by omega)).mpr (T.node 0 (by omega))
      rw [if_pos rfl, if_neg (by omega)] at h
      exact h
    · have h := (nodeEq_at hk W le_rfl).mpr (T.node (w.ix.nk k) le_rfl)
      rw [if_neg (by omega), if_pos rfl] at h
      exact h
    · exact (linkEq_iff ..).mpr T.up
    · exact (linkEq_iff ..).mpr T.dn
  · rintro ⟨I, E⟩
    refine ⟨fun j hj => (linkEq_iff ..).mp (I.link j hj), fun j hj => (nodeEq_at hk W hj).mp ?_,
      (linkEq_iff ..).mp E.up, (linkEq_iff ..).mp E.dn⟩
    by_cases h0 : j = 0
    · subst h0
      rw [if_pos rfl, if_neg (by omega)]
      exact E.first
    · by_cases h1 : j = w.ix.nk k
      · subst h1
        rw [if_neg h0, if_pos rfl]
        exact E.last
      · obtain ⟨m, rfl⟩ : ∃ m, j = m + 1 := ⟨j - 1, by omega⟩
        rw [if_neg h0, if_neg h1, Nat.add_sub_cancel]
        exact I.node m (by omega)

end Pipedream.Quality
