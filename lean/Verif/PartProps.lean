import Verif.PartModel
import Verif.RetryProps

/-!
# C108–C110: order of tables, isolated parts

A network that contains a copy of another one, with nothing else attached to the copy, computes on the copy
what the other one computes. Consequences: the order of rows in the tables is irrelevant (C108), a
disconnected part behaves as if it were simulated alone (C109), and what happens elsewhere does not
influence it (C110).
-/

namespace Pipedream.Step

open Pipedream.Sweep Pipedream.Link Pipedream.Superlink Pipedream.Control Pipedream.Network
open Pipedream.Geometry Pipedream.Interp

variable {m m' : Model} {P P' : Plan} {φ : Places}

/-! ### Geometry on the copy -/

/-- Two geometries agree on the copy. -/
structure ShowsGeo (m m' : Model) (φ : Places) (G G' : Geo) : Prop where
  A : ∀ k, k < m.ix.NK → ∀ j, j < m.ix.nk k → G'.A (m'.ix.i_1k (φ.K k) + j) = G.A (m.ix.i_1k k + j)
  R : ∀ k, k < m.ix.NK → ∀ j, j < m.ix.nk k → G'.R (m'.ix.i_1k (φ.K k) + j) = G.R (m.ix.i_1k k + j)
  B : ∀ k, k < m.ix.NK → ∀ j, j < m.ix.nk k → G'.B (m'.ix.i_1k (φ.K k) + j) = G.B (m.ix.i_1k k + j)
  sigma : ∀ k, k < m.ix.NK → ∀ j, j < m.ix.nk k → G'.sigma (m'.ix.i_1k (φ.K k) + j) = G.sigma (m.ix.i_1k k + j)
  A_u : ∀ k, k < m.ix.NK → G'.A_u (φ.K k) = G.A_u k
  B_u : ∀ k, k < m.ix.NK → G'.B_u (φ.K k) = G.B_u k
  A_d : ∀ k, k < m.ix.NK → G'.A_d (φ.K k) = G.A_d k
  B_d : ∀ k, k < m.ix.NK → G'.B_d (φ.K k) = G.B_d k
  As : ∀ j, j < m.M → G'.As (φ.J j) = G.As j
  V : ∀ j, j < m.M → G'.V (φ.J j) = G.V j
  Ao : ∀ k, k < m.n_o → G'.Ao (φ.O k) = G.Ao k

theorem shows_geoOf (c : m.Consistent) (lt : LinkTables m P) (lt' : LinkTables m' P') (cp : Copy m P m' P' φ)
    {hid hid' : Hidden} (tu : ∀ k, k < m.ix.NK → hid'.thu (φ.K k) = hid.thu k)
    (td : ∀ k, k < m.ix.NK → hid'.thd (φ.K k) = hid.thd k) {Ao Ao' : ℕ → ℝ}
    (hA : ∀ k, k < m.n_o → Ao' (φ.O k) = Ao k) {s s' : Hyd} (sh : ShowsState m m' φ s s') :
    ShowsGeo m m' φ (m.geoOf P hid Ao s) (m'.geoOf P' hid' Ao' s') := by
  have n1 := c.layout.pos
  have h1 : ∀ k, k < m.ix.NK → ∀ j, j < m.ix.nk k →
      s'.h (P'.Ik (m'.ix.i_1k (φ.K k) + j)) = s.h (P.Ik (m.ix.i_1k k + j)) := fun k hk j hj => by
    rw [lt.Ik k hk j hj, lt'.Ik _ (cp.K_lt k hk) j (by rw [cp.nk k hk]; exact hj), sh.h k hk j hj.le]
  have h2 : ∀ k, k < m.ix.NK → ∀ j, j < m.ix.nk k →
      s'.h (P'.Ik (m'.ix.i_1k (φ.K k) + j) + 1) = s.h (P.Ik (m.ix.i_1k k + j) + 1) := fun k hk j hj => by
    rw [lt.Ik k hk j hj, lt'.Ik _ (cp.K_lt k hk) j (by rw [cp.nk k hk]; exact hj), add_assoc, add_assoc,
      sh.h k hk (j + 1) hj]
  have s0 : ∀ k, k < m.ix.NK → P'.sec (m'.ix.i_1k (φ.K k)) = P.sec (m.ix.i_1k k) := fun k hk => by
    simpa using cp.sec k hk 0 (n1 k hk)
  have sn : ∀ k, k < m.ix.NK → P'.sec (m'.ix.i_1k (φ.K k) + m.ix.nk k - 1) =
      P.sec (m.ix.i_1k k + m.ix.nk k - 1) := fun k hk => by
    have := n1 k hk
    have := cp.sec k hk (m.ix.nk k - 1) (by omega)
    rwa [← Nat.add_sub_assoc (n1 k hk), ← Nat.add_sub_assoc (n1 k hk)] at this
  have hh0 : ∀ k, k < m.ix.NK → s'.h (m'.ix.I_1k (φ.K k)) = s.h (m.ix.I_1k k) := fun k hk => by
    simpa using sh.h k hk 0 (Nat.zero_le _)
  refine ⟨fun k hk j hj => ?_, fun k hk j hj => ?_, fun k hk j hj => ?_, fun k hk j hj => ?_, fun k hk => ?_,
    fun k hk => ?_, fun k hk => ?_, fun k hk => ?_, fun j hj => ?_, fun j hj => ?_, fun k hk => ?_⟩
  · simp only [Model.geoOf]; rw [h1 k hk j hj, h2 k hk j hj, cp.sec k hk j hj]
  · simp only [Model.geoOf]; rw [h1 k hk j hj, h2 k hk j hj, cp.sec k hk j hj, cp.eps, cp.ell]
  · simp only [Model.geoOf]; rw [h1 k hk j hj, h2 k hk j hj, cp.sec k hk j hj]
  · simp only [Model.geoOf]; rw [h1 k hk j hj, h2 k hk j hj, cp.sec k hk j hj, cp.damp, cp.g, sh.Q k hk j hj]
  · simp only [Model.geoOf, upTo_of_lt _ hk, upTo_of_lt _ (cp.K_lt k hk)]
    rw [s0 k hk, hh0 k hk, tu k hk, cp.Ju k hk, sh.H _ (c.Ju k hk), cp.z_uk k hk]
  · simp only [Model.geoOf, upTo_of_lt _ hk, upTo_of_lt _ (cp.K_lt k hk)]
    rw [s0 k hk, hh0 k hk, tu k hk, cp.Ju k hk, sh.H _ (c.Ju k hk), cp.z_uk k hk]
  · simp only [Model.geoOf, upTo_of_lt _ hk, upTo_of_lt _ (cp.K_lt k hk)]
    rw [cp.nk k hk, sn k hk, sh.h k hk _ le_rfl, td k hk, cp.Jd k hk, sh.H _ (c.Jd k hk), cp.z_dk k hk]
  · simp only [Model.geoOf, upTo_of_lt _ hk, upTo_of_lt _ (cp.K_lt k hk)]
    rw [cp.nk k hk, sn k hk, sh.h k hk _ le_rfl, td k hk, cp.Jd k hk, sh.H _ (c.Jd k hk), cp.z_dk k hk]
  · simp only [Model.geoOf, upTo_of_lt _ hj, upTo_of_lt _ (cp.J_lt j hj)]
    rw [cp.storage j hj, sh.H j hj, cp.z_inv j hj, cp.md]
  · simp only [Model.geoOf, upTo_of_lt _ hj, upTo_of_lt _ (cp.J_lt j hj)]
    rw [cp.storage j hj, sh.H j hj, cp.z_inv j hj, cp.md]
  · simp only [Model.geoOf, upTo_of_lt _ hk, upTo_of_lt _ (cp.O_lt k hk)]
    exact hA k hk

/-! ### Coefficients and sweeps on the copy -/

variable {G G' : Geo} {inp inp' : Inputs} {prev prev' cur cur' : Hyd} {co co' : Coef ℝ} {wk wk' : Work}

/-- Coefficients of two superlinks of `n` links agree. -/
structure CoOn (n : ℕ) (co co' : Coef ℝ) : Prop where
  a : ∀ i, i < n → co.a i = co'.a i
  b : ∀ i, i < n → co.b i = co'.b i
  c : ∀ i, i < n → co.c i = co'.c i
  P : ∀ i, i < n → co.P i = co'.P i
  A : ∀ i, i < n → co.A i = co'.A i
  E : ∀ i, i ≤ n → co.E i = co'.E i
  D : ∀ i, i ≤ n → co.D i = co'.D i

theorem CoOn.fwd {g : ℝ} {co co' : Coef ℝ} {n : ℕ} (hn : 1 ≤ n) {T U V W : ℕ → ℝ}
    (e : CoOn n co co') (R : FwdRel g co n T U V W) : FwdRel g co' n T U V W := by
  refine ⟨?_, ?_, ?_, ?_, fun j hj => ?_, fun j hj => ?_, fun j hj => ?_, fun j hj => ?_⟩
  · rw [R.T0, e.a 0 hn, e.b 0 hn, e.c 0 hn]
  · rw [R.U0, e.E 1 hn, e.c 0 hn, e.A 0 hn]
  · rw [R.V0, e.P 0 hn, e.D 1 hn, e.D 0 (by omega), e.c 0 hn, e.a 0 hn]
  · rw [R.W0, e.A 0 hn, e.a 0 hn, e.E 0 (by omega)]
  · rw [R.Ts j hj, e.a _ hj, e.b _ hj, e.c _ hj, e.A _ hj, e.E _ hj.le]
  · rw [R.Us j hj, e.E (j + 2) (by omega), e.c _ hj, e.A _ hj]
  · rw [R.Vs j hj, e.P _ hj, e.a _ hj, e.D (j + 1) hj.le, e.D (j + 2) (by omega), e.c _ hj, e.A _ hj,
      e.E _ hj.le]
  · rw [R.Ws j hj, e.A _ hj, e.E _ hj.le, e.a _ hj]

theorem CoOn.bwd {g : ℝ} {co co' : Coef ℝ} {n : ℕ} (hn : 1 ≤ n) {O X Y Z : ℕ → ℝ}
    (e : CoOn n co co') (R : BwdRel g co n O X Y Z) : BwdRel g co' n O X Y Z := by
  have hl : n - 1 < n := by omega
  refine ⟨?_, ?_, ?_, ?_, fun j h0 hj => ?_, fun j h0 hj => ?_, fun j h0 hj => ?_, fun j h0 hj => ?_⟩
  · rw [R.On, e.a _ hl, e.b _ hl, e.c _ hl]
  · rw [R.Xn, e.E _ hl.le, e.a _ hl, e.A _ hl]
  · rw [R.Yn, e.P _ hl, e.D (n - 1) hl.le, e.D n le_rfl, e.c _ hl, e.a _ hl]
  · rw [R.Zn, e.A _ hl, e.c _ hl, e.E n le_rfl]
  · have h : j < n := by omega
    rw [R.Os j h0 hj, e.a _ h, e.b _ h, e.c _ h, e.A _ h, e.E (j + 1) (by omega)]
  · have h : j < n := by omega
    rw [R.Xs j h0 hj, e.E j h.le, e.a _ h, e.A _ h]
  · have h : j < n := by omega
    rw [R.Ys j h0 hj, e.P _ h, e.a _ h, e.D j h.le, e.D (j + 1) (by omega), e.c _ h, e.A _ h,
      e.E (j + 1) (by omega)]
  · have h : j < n := by omega
    rw [R.Zs j h0 hj, e.A _ h, e.E (j + 1) (by omega), e.c _ h]

theorem uIk_copy {dx dx' u u' : ℕ → ℝ} {st st' : ℕ → Bool} {b b' j : ℕ} (hs : st (b + j) = true ↔ j = 0)
    (hs' : st' (b' + j) = true ↔ j = 0) (hx : ∀ i, i ≤ j → dx' (b' + i) = dx (b + i))
    (hu : ∀ i, i ≤ j → u' (b' + i) = u (b + i)) : uIk dx' u' st' (b' + j) = uIk dx u st (b + j) := by
  unfold uIk
  by_cases h0 : j = 0
  · rw [if_pos (hs.2 h0), if_pos (hs'.2 h0), hu j le_rfl]
  · rw [if_neg (fun h => h0 (hs.1 h)), if_neg (fun h => h0 (hs'.1 h))]
    dsimp only
    rw [Nat.add_sub_assoc (by omega), Nat.add_sub_assoc (by omega), hx j le_rfl, hx (j - 1) (by omega),
      hu j le_rfl, hu (j - 1) (by omega)]

theorem uIp1k_copy {dx dx' u u' : ℕ → ℝ} {st st' : ℕ → Bool} {b b' j n : ℕ} (hj : j < n)
    (hs : st (b + j) = true ↔ j + 1 = n) (hs' : st' (b' + j) = true ↔ j + 1 = n)
    (hx : ∀ i, i < n → dx' (b' + i) = dx (b + i)) (hu : ∀ i, i < n → u' (b' + i) = u (b + i)) :
    uIp1k dx' u' st' (b' + j) = uIp1k dx u st (b + j) := by
  unfold uIp1k
  by_cases h0 : j + 1 = n
  · rw [if_pos (hs.2 h0), if_pos (hs'.2 h0), hu j hj]
  · rw [if_neg (fun h => h0 (hs.1 h)), if_neg (fun h => h0 (hs'.1 h))]
    dsimp only
    rw [add_assoc, add_assoc, hx j hj, hx (j + 1) (by omega), hu j hj, hu (j + 1) (by omega)]

theorem shows_coefs (c : m.Consistent) (c' : m'.Consistent) (st : StartTables m) (st' : StartTables m')
    (cp : Copy m P m' P' φ) (sg : ShowsGeo m m' φ G G') (si : ShowsInputs m m' φ inp inp')
    (sp : ShowsState m m' φ prev prev') (sc : ShowsState m m' φ cur cur')
    (h : StepCoefs m.g m.N (m.linkIn G inp prev cur) (m.nodeIn G inp prev) m.nix co)
    (h' : StepCoefs m'.g m'.N (m'.linkIn G' inp' prev' cur') (m'.nodeIn G' inp' prev') m'.nix co')
    {k : ℕ} (hk : k < m.ix.NK) :
    CoOn (m.ix.nk k) (co'.slice (m'.ix.i_1k (φ.K k)) (m'.ix.I_1k (φ.K k)))
      (co.slice (m.ix.i_1k k) (m.ix.I_1k k)) := by
  obtain ⟨hl, hE, hD⟩ := h
  obtain ⟨hl', hE', hD'⟩ := h'
  have hk' := cp.K_lt k hk
  have n1 := c.layout.pos k hk
  have inN := c.inN k hk
  have inN' := c'.inN _ hk'
  have nk := cp.nk k hk
  rw [nk] at inN'
  -- velocities
  have hv : ∀ j, j < m.ix.nk k → uik (cur'.Q (m'.ix.i_1k (φ.K k) + j)) (G'.A (m'.ix.i_1k (φ.K k) + j)) =
      uik (cur.Q (m.ix.i_1k k + j)) (G.A (m.ix.i_1k k + j)) := fun j hj => by
    rw [sc.Q k hk j hj, sg.A k hk j hj]
  have ha : ∀ j, j < m.ix.nk k → (m'.linkIn G' inp' prev' cur').a (m'.ix.i_1k (φ.K k) + j) =
      (m.linkIn G inp prev cur).a (m.ix.i_1k k + j) := fun j hj => by
    show aIk (uIk m'.dx (fun i => uik (cur'.Q i) (G'.A i)) m'.linkStart _) (G'.sigma _) =
      aIk (uIk m.dx (fun i => uik (cur.Q i) (G.A i)) m.linkStart _) (G.sigma _)
    rw [uIk_copy (st.first k hk j hj) (st'.first _ hk' j (by rw [nk]; exact hj))
      (fun i hi => cp.dx k hk i (by omega)) (u := fun i => uik (cur.Q i) (G.A i)) (fun i hi => hv i (by omega)), sg.sigma k hk j hj]
  have hc : ∀ j, j < m.ix.nk k → (m'.linkIn G' inp' prev' cur').c (m'.ix.i_1k (φ.K k) + j) =
      (m.linkIn G inp prev cur).c (m.ix.i_1k k + j) := fun j hj => by
    have hs' := st'.last _ hk' j (by rw [nk]; exact hj)
    rw [nk] at hs'
    show cIk (uIp1k m'.dx (fun i => uik (cur'.Q i) (G'.A i)) m'.linkEnd _) (G'.sigma _) =
      cIk (uIp1k m.dx (fun i => uik (cur.Q i) (G.A i)) m.linkEnd _) (G.sigma _)
    rw [uIp1k_copy hj (st.last k hk j hj) hs' (fun i hi => cp.dx k hk i hi)
      (u := fun i => uik (cur.Q i) (G.A i)) hv, sg.sigma k hk j hj]
  have hJ : ∀ j, j ≤ m.ix.nk k →
      junctionArea (m'.nodeIn G' inp' prev') (m.ix.nk k) (m'.ix.I_1k (φ.K k)) (m'.ix.i_1k (φ.K k)) (φ.K k) j =
      junctionArea (m.nodeIn G inp prev) (m.ix.nk k) (m.ix.I_1k k) (m.ix.i_1k k) k j := fun j hj => by
    simp only [junctionArea, Model.nodeIn]
    rw [sg.B_u k hk, sg.B_d k hk, cp.dx_uk k hk, cp.dx_dk k hk, cp.A_S k hk j hj]
    congr 2
    · by_cases h0 : j = 0
      · simp only [h0, if_true]
      · simp only [h0, if_false]
        rw [Nat.add_sub_assoc (by omega), Nat.add_sub_assoc (by omega), sg.B k hk (j - 1) (by omega),
          cp.dx k hk (j - 1) (by omega)]
    · by_cases h0 : j = m.ix.nk k
      · simp only [h0, if_true]
      · simp only [h0, if_false]
        rw [sg.B k hk j (by omega), cp.dx k hk j (by omega)]
  have Nn := fun j (hj : j ≤ m.ix.nk k) => node_coeffs_eq (y := m.nodeIn G inp prev) n1 (c.nodes k hk) hj
  have Nn' := fun j (hj : j ≤ m.ix.nk k) => node_coeffs_eq (y := m'.nodeIn G' inp' prev') n1
    (nk ▸ c'.nodes _ hk') hj
  refine ⟨fun j hj => ?_, fun j hj => ?_, fun j hj => ?_, fun j hj => ?_, fun j hj => ?_, fun j hj => ?_,
    fun j hj => ?_⟩ <;> simp only [Coef.slice]
  · rw [(hl _ (by omega)).1, (hl' _ (by omega)).1, ha j hj]
  · have e := (hl (m.ix.i_1k k + j) (by omega)).2.1
    have e' := (hl' (m'.ix.i_1k (φ.K k) + j) (by omega)).2.1
    simp only [LinkIn.b, ha j hj, hc j hj] at e e'
    simp only [Model.linkIn] at e e'
    rw [cp.dx k hk j hj, si.dt, cp.n k hk j hj, sc.Q k hk j hj, sg.A k hk j hj, sg.R k hk j hj,
      cp.A_c k hk j hj, cp.C k hk j hj, cp.ctrl k hk j hj, sg.sigma k hk j hj, cp.method k hk j hj, cp.g] at e'
    exact Except.ok.inj (e'.symm.trans e)
  · rw [(hl _ (by omega)).2.2.1, (hl' _ (by omega)).2.2.1, hc j hj]
  · rw [(hl _ (by omega)).2.2.2.1, (hl' _ (by omega)).2.2.2.1]
    simp only [LinkIn.P, Model.linkIn]
    rw [sp.Q k hk j hj, cp.dx k hk j hj, si.dt, sg.A k hk j hj, cp.S_o k hk j hj, sg.sigma k hk j hj, cp.g]
  · rw [(hl _ (by omega)).2.2.2.2, (hl' _ (by omega)).2.2.2.2]
    exact sg.A k hk j hj
  · rw [hE, hE', (Nn j hj).1, (Nn' j hj).1, hJ j hj]
    simp only [Model.nodeIn, si.dt]
  · rw [hD, hD', (Nn j hj).2, (Nn' j hj).2, hJ j hj]
    simp only [Model.nodeIn, si.dt, si.Q_0Ik k hk j hj, sp.h k hk j hj]

/-- Sweeps and end coefficients on the copy. -/
theorem shows_sweeps (c : m.Consistent) (c' : m'.Consistent) (cp : Copy m P m' P' φ) (wk wk' : Work) {k : ℕ}
    (hk : k < m.ix.NK)
    (e : CoOn (m.ix.nk k) (co'.slice (m'.ix.i_1k (φ.K k)) (m'.ix.I_1k (φ.K k)))
      (co.slice (m.ix.i_1k k) (m.ix.I_1k k))) :
    (∀ j, j < m.ix.nk k → (m'.fwd wk' co').U (m'.ix.I_1k (φ.K k) + j) = (m.fwd wk co).U (m.ix.I_1k k + j) ∧
      (m'.fwd wk' co').V (m'.ix.I_1k (φ.K k) + j) = (m.fwd wk co).V (m.ix.I_1k k + j) ∧
      (m'.fwd wk' co').W (m'.ix.I_1k (φ.K k) + j) = (m.fwd wk co).W (m.ix.I_1k k + j)) ∧
    (∀ j, j < m.ix.nk k → (m'.bwd wk' co').X (m'.ix.I_1k (φ.K k) + j) = (m.bwd wk co).X (m.ix.I_1k k + j) ∧
      (m'.bwd wk' co').Y (m'.ix.I_1k (φ.K k) + j) = (m.bwd wk co).Y (m.ix.I_1k k + j) ∧
      (m'.bwd wk' co').Z (m'.ix.I_1k (φ.K k) + j) = (m.bwd wk co).Z (m.ix.I_1k k + j)) ∧
    m'.endRec wk' co' (φ.K k) = m.endRec wk co k := by
  have n1 := c.layout.pos k hk
  have nk := cp.nk k hk
  have F' := sweptFwd_rel m'.g co' m'.ix wk'.f c'.layout (cp.K_lt k hk)
  have B' := sweptBwd_rel m'.g co' m'.ix wk'.b c'.layout (cp.K_lt k hk)
  rw [nk, cp.g] at F' B'
  have F := fwdRel_unique (CoOn.fwd n1 e F') (sweptFwd_rel m.g co m.ix wk.f c.layout hk)
  have B := bwdRel_unique (CoOn.bwd n1 e B') (sweptBwd_rel m.g co m.ix wk.b c.layout hk)
  rw [← cp.g] at F B
  refine ⟨fun j hj => ?_, fun j hj => ?_, ?_⟩
  · have := (F j hj).2
    unfold Model.fwd; rw [← cp.g]; exact this
  · have := (B j hj).2
    unfold Model.bwd; rw [← cp.g]; exact this
  · obtain ⟨-, u, v, w⟩ := F (m.ix.nk k - 1) (by omega)
    obtain ⟨-, x, y, z⟩ := B 0 (by omega)
    unfold Model.endRec Superlink.endRec Model.fwd Model.bwd
    rw [cp.em, nk, ← cp.g]
    have E0 := e.E 0 (by omega)
    have En := e.E _ le_rfl
    have D0 := e.D 0 (by omega)
    have Dn := e.D _ le_rfl
    cases m.end_method
    · simp only [u, v, w, x, y, z]
    · simp only [u, v, w, x, y, z, E0, En, D0, Dn]

/-! ### Head equations on the copy -/

theorem shows_headCoef (c : m.Consistent) (cp : Copy m P m' P' φ) (sg : ShowsGeo m m' φ G G')
    (sc : ShowsState m m' φ cur cur') {k : ℕ} (hk : k < m.ix.NK) :
    m'.headCoef G' cur' (φ.K k) = m.headCoef G cur k := by
  unfold Model.headCoef
  rw [cp.g, cp.Ju k hk, cp.Jd k hk, sc.H _ (c.Ju k hk), sc.H _ (c.Jd k hk), sc.Qu k hk, sc.Qd k hk, cp.C_uk k hk,
    cp.C_dk k hk, sg.A_u k hk, sg.A_d k hk, cp.z_uk k hk, cp.z_dk k hk]

theorem shows_oLin (c : m.Consistent) (cp : Copy m P m' P' φ) (sg : ShowsGeo m m' φ G G')
    (si : ShowsInputs m m' φ inp inp') (sc : ShowsState m m' φ cur cur') (wk wk' : Work) {k : ℕ}
    (hk : k < m.n_o) : m'.oLin G' inp' wk' cur' (φ.O k) = m.oLin G inp wk cur k := by
  unfold Model.oLin orificeLin
  rw [cp.Juo k hk, cp.Jdo k hk, sc.H _ (c.Juo k hk), sc.H _ (c.Jdo k hk), sc.Qo k hk, sg.Ao k hk, cp.Co k hk,
    si.u_o k hk, cp.orifice k hk, cp.g]
  exact C11_orifice_no_stale _ _ _ _ _ _ _

theorem shows_wLin (c : m.Consistent) (cp : Copy m P m' P' φ)
    (si : ShowsInputs m m' φ inp inp') (sc : ShowsState m m' φ cur cur') (wk wk' : Work) {k : ℕ}
    (hk : k < m.n_w) : m'.wLin inp' wk' cur' (φ.W k) = m.wLin inp wk cur k := by
  unfold Model.wLin
  rw [cp.Juw k hk, cp.Jdw k hk, sc.H _ (c.Juw k hk), sc.H _ (c.Jdw k hk), sc.Qw k hk, si.u_w k hk, cp.weir k hk]
  exact C11_weir_no_stale _ _ _ _ _ _ _

theorem shows_pLin (c : m.Consistent) (cp : Copy m P m' P' φ)
    (si : ShowsInputs m m' φ inp inp') (sc : ShowsState m m' φ cur cur') (wk wk' : Work) {k : ℕ}
    (hk : k < m.n_p) : m'.pLin inp' wk' cur' (φ.Pp k) = m.pLin inp wk cur k := by
  unfold Model.pLin
  rw [cp.Jup k hk, cp.Jdp k hk, sc.H _ (c.Jup k hk), sc.H _ (c.Jdp k hk), sc.Qp k hk, si.u_p k hk, cp.pump k hk]
  exact C11_pump_no_stale _ _ _ _ _ _ _

/-- A sum over the elements of the large network that vanishes outside the copy. -/
theorem sum_copy {n n' : ℕ} {ψ : ℕ → ℕ} (lt : ∀ k, k < n → ψ k < n')
    (inj : ∀ i j, i < n → j < n → ψ i = ψ j → i = j) {f f' : ℕ → ℝ} (h : ∀ k, k < n → f' (ψ k) = f k)
    (z : ∀ k', k' < n' → (¬ ∃ k, k < n ∧ ψ k = k') → f' k' = 0) :
    ∑ k ∈ Finset.range n', f' k = ∑ k ∈ Finset.range n, f k := by
  classical
  have e1 : ∑ k ∈ Finset.range n, f k = ∑ k ∈ Finset.range n, f' (ψ k) :=
    Finset.sum_congr rfl fun k hk => (h k (Finset.mem_range.mp hk)).symm
  rw [e1, ← Finset.sum_image (f := f') (g := ψ) (s := Finset.range n) fun i hi j hj e =>
    inj i j (Finset.mem_range.mp hi) (Finset.mem_range.mp hj) e]
  refine (Finset.sum_subset ?_ ?_).symm
  · intro k' hk'
    obtain ⟨k, hk, rfl⟩ := Finset.mem_image.mp hk'
    exact Finset.mem_range.mpr (lt k (Finset.mem_range.mp hk))
  · intro k' hk' hn
    refine z k' (Finset.mem_range.mp hk') fun ⟨k, hk, e⟩ => hn ?_
    exact Finset.mem_image.mpr ⟨k, Finset.mem_range.mpr hk, e⟩

/-- Contributions of elements to a superjunction of the copy. -/
theorem ends_copy {n n' M : ℕ} {ψ J Ju Jd Ju' Jd' : ℕ → ℕ} (op : ℝ → ℝ → ℝ) (op0 : op 0 0 = 0)
    (lt : ∀ k, k < n → ψ k < n')
    (inj : ∀ i j, i < n → j < n → ψ i = ψ j → i = j) (Jinj : ∀ i j, i < M → j < M → J i = J j → i = j)
    (hJu : ∀ k, k < n → Ju' (ψ k) = J (Ju k)) (hJd : ∀ k, k < n → Jd' (ψ k) = J (Jd k))
    (lu : ∀ k, k < n → Ju k < M) (ld : ∀ k, k < n → Jd k < M)
    (iso : ∀ k', k' < n' → (∃ j, j < M ∧ (Ju' k' = J j ∨ Jd' k' = J j)) → ∃ k, k < n ∧ ψ k = k')
    {a b a' b' : ℕ → ℝ} (ha : ∀ k, k < n → a' (ψ k) = a k) (hb : ∀ k, k < n → b' (ψ k) = b k) {i : ℕ} (hi : i < M) :
    ∑ k ∈ Finset.range n', op (if Jd' k = J i then a' k else 0) (if Ju' k = J i then b' k else 0) =
      ∑ k ∈ Finset.range n, op (if Jd k = i then a k else 0) (if Ju k = i then b k else 0) := by
  refine sum_copy lt inj (fun k hk => ?_) (fun k' hk' hn => ?_)
  · have e1 : (Jd' (ψ k) = J i) = (Jd k = i) := by
      rw [hJd k hk]; exact propext ⟨fun h => Jinj _ _ (ld k hk) hi h, fun h => by rw [h]⟩
    have e2 : (Ju' (ψ k) = J i) = (Ju k = i) := by
      rw [hJu k hk]; exact propext ⟨fun h => Jinj _ _ (lu k hk) hi h, fun h => by rw [h]⟩
    simp only [e1, e2, ha k hk, hb k hk]
  · rw [if_neg fun h => hn (iso k' hk' ⟨i, hi, .inr h⟩), if_neg fun h => hn (iso k' hk' ⟨i, hi, .inl h⟩)]
    exact op0

theorem ctrl_copy {C C' : Ctrls ℝ} {M : ℕ} {ψ J : ℕ → ℕ} (lt : ∀ k, k < C.n → ψ k < C'.n)
    (inj : ∀ i j, i < C.n → j < C.n → ψ i = ψ j → i = j) (Jinj : ∀ i j, i < M → j < M → J i = J j → i = j)
    (hJu : ∀ k, k < C.n → C'.Ju (ψ k) = J (C.Ju k)) (hJd : ∀ k, k < C.n → C'.Jd (ψ k) = J (C.Jd k))
    (lu : ∀ k, k < C.n → C.Ju k < M) (ld : ∀ k, k < C.n → C.Jd k < M)
    (iso : ∀ k', k' < C'.n → (∃ j, j < M ∧ (C'.Ju k' = J j ∨ C'.Jd k' = J j)) → ∃ k, k < C.n ∧ ψ k = k')
    (hc : ∀ k, k < C.n → C'.alpha (ψ k) = C.alpha k ∧ C'.beta (ψ k) = C.beta k ∧ C'.chi (ψ k) = C.chi k)
    {x x' : ℕ → ℝ} (hx : ∀ j, j < M → x' (J j) = x j) {i : ℕ} (hi : i < M) :
    C'.inflow x' (J i) = C.inflow x i := by
  have hq : ∀ k, k < C.n → C'.Q x' (ψ k) = C.Q x k := fun k hk => by
    obtain ⟨h1, h2, h3⟩ := hc k hk
    unfold Ctrls.Q
    rw [h1, h2, h3, hJu k hk, hJd k hk, hx _ (lu k hk), hx _ (ld k hk)]
  exact ends_copy (fun a b => a - b) (sub_zero _) lt inj Jinj hJu hJd lu ld iso hq hq hi

/-- The coefficients agree on every superlink of the copy. -/
def ShowsCoef (m m' : Model) (φ : Places) (co co' : Coef ℝ) : Prop :=
  ∀ k, k < m.ix.NK → CoOn (m.ix.nk k) (co'.slice (m'.ix.i_1k (φ.K k)) (m'.ix.I_1k (φ.K k)))
    (co.slice (m.ix.i_1k k) (m.ix.I_1k k))

theorem balanced_copy (c : m.Consistent) (c' : m'.Consistent) (cp : Copy m P m' P' φ) (iso : Isolated m m' φ)
    (sg : ShowsGeo m m' φ G G') (si : ShowsInputs m m' φ inp inp') (sp : ShowsState m m' φ prev prev')
    (sc : ShowsState m m' φ cur cur') (e : ShowsCoef m m' φ co co') (wk wk' : Work) {x x' : ℕ → ℝ}
    (hx : ∀ j, j < m.M → x' (φ.J j) = x j) {i : ℕ} (hi : i < m.M)
    (h : Network.Balanced (m'.net G' inp' wk' cur' co') inp'.dt prev'.H inp'.Q_in x' (φ.J i)) :
    Network.Balanced (m.net G inp wk cur co) inp.dt prev.H inp.Q_in x i := by
  have er : ∀ k, k < m.ix.NK → m'.endRec wk' co' (φ.K k) = m.endRec wk co k := fun k hk =>
    (shows_sweeps c c' cp wk wk' hk (e k hk)).2.2
  have hu : ∀ k, k < m.ix.NK → (m'.net G' inp' wk' cur' co').links.Qu x' (φ.K k) =
      (m.net G inp wk cur co).links.Qu x k := fun k hk => by
    simp only [Links.Qu, Model.net]
    rw [er k hk, shows_headCoef c cp sg sc hk, cp.Ju k hk, cp.Jd k hk, hx _ (c.Ju k hk), hx _ (c.Jd k hk)]
  have hd : ∀ k, k < m.ix.NK → (m'.net G' inp' wk' cur' co').links.Qd x' (φ.K k) =
      (m.net G inp wk cur co).links.Qd x k := fun k hk => by
    simp only [Links.Qd, Model.net]
    rw [er k hk, shows_headCoef c cp sg sc hk, cp.Ju k hk, cp.Jd k hk, hx _ (c.Ju k hk), hx _ (c.Jd k hk)]
  have hl : (m'.net G' inp' wk' cur' co').links.inflow x' (φ.J i) = (m.net G inp wk cur co).links.inflow x i :=
    ends_copy (fun a b => a - b) (sub_zero _) cp.K_lt cp.K_inj cp.J_inj cp.Ju cp.Jd c.Ju c.Jd iso.K hd hu hi
  have hxi : (m'.net G' inp' wk' cur' co').links.xiSum (φ.J i) = (m.net G inp wk cur co).links.xiSum i := by
    refine ends_copy (fun a b => b + a) (add_zero _) cp.K_lt cp.K_inj cp.J_inj cp.Ju cp.Jd c.Ju c.Jd iso.K
      (fun k hk => ?_) (fun k hk => ?_) hi
    · simp only [Model.net]
      rw [cp.dx_dk k hk, sg.B_d k hk, cp.Jd k hk, sc.H _ (c.Jd k hk), cp.z_dk k hk, si.dt]
    · simp only [Model.net]
      rw [cp.dx_uk k hk, sg.B_u k hk, cp.Ju k hk, sc.H _ (c.Ju k hk), cp.z_uk k hk, si.dt]
  have ho := ctrl_copy (C := (m.net G inp wk cur co).orifices) (C' := (m'.net G' inp' wk' cur' co').orifices)
    cp.O_lt cp.O_inj cp.J_inj cp.Juo cp.Jdo c.Juo c.Jdo iso.O
    (fun k hk => by simp only [Model.net]; rw [shows_oLin c cp sg si sc wk wk' hk]; exact ⟨rfl, rfl, rfl⟩) hx hi
  have hw := ctrl_copy (C := (m.net G inp wk cur co).weirs) (C' := (m'.net G' inp' wk' cur' co').weirs)
    cp.W_lt cp.W_inj cp.J_inj cp.Juw cp.Jdw c.Juw c.Jdw iso.W
    (fun k hk => by simp only [Model.net]; rw [shows_wLin c cp si sc wk wk' hk]; exact ⟨rfl, rfl, rfl⟩) hx hi
  have hp := ctrl_copy (C := (m.net G inp wk cur co).pumps) (C' := (m'.net G' inp' wk' cur' co').pumps)
    cp.P_lt cp.P_inj cp.J_inj cp.Jup cp.Jdp c.Jup c.Jdp iso.P
    (fun k hk => by simp only [Model.net]; rw [shows_pLin c cp si sc wk wk' hk]; exact ⟨rfl, rfl, rfl⟩) hx hi
  unfold Network.Balanced at h ⊢
  rw [hl, hxi, ho, hw, hp, hx i hi, sp.H i hi, si.dt, si.Q_in i hi] at h
  have hAs : (m'.net G' inp' wk' cur' co').As (φ.J i) = (m.net G inp wk cur co).As i := sg.As i hi
  rw [hAs] at h
  exact h

/-- Heads solved for the large network solve the equations of the small one. -/
theorem solves_copy (c : m.Consistent) (c' : m'.Consistent) (cp : Copy m P m' P' φ) (iso : Isolated m m' φ)
    (sg : ShowsGeo m m' φ G G') (si : ShowsInputs m m' φ inp inp') (sp : ShowsState m m' φ prev prev')
    (sc : ShowsState m m' φ cur cur') (e : ShowsCoef m m' φ co co') {wk wk' : Work} (cw : CleanWork m wk.mats)
    (cw' : CleanWork m' wk'.mats) {x' : ℕ → ℝ}
    (h : Solves m'.M (m'.lhs G' inp' wk' cur' co') (m'.rhs G' inp' wk' prev' cur' co') x') :
    Solves m.M (m.lhs G inp wk cur co) (m.rhs G inp wk prev cur co) (fun j => x' (φ.J j)) := by
  have h1 := (solves_iff (m'.net G' inp' wk' cur' co') inp'.dt wk'.mats cw'.mats (wired c') prev'.H inp'.Q_in
    (inp'.H_bc.getD cur'.H) x').mp h
  refine (solves_iff (m.net G inp wk cur co) inp.dt wk.mats cw.mats (wired c) prev.H inp.Q_in
    (inp.H_bc.getD cur.H) _).mpr fun i hi => ?_
  obtain ⟨hb, hf⟩ := h1 (φ.J i) (cp.J_lt i hi)
  refine ⟨fun hbc => ?_, fun hbc => ?_⟩
  · rw [hb ((cp.bc i hi).trans hbc)]
    have hg := si.given
    have hv := si.H_bc
    cases h2 : inp.H_bc with
    | none =>
      cases h3 : inp'.H_bc with
      | none => exact sc.H i hi
      | some f' => rw [h2, h3] at hg; simp at hg
    | some f =>
      cases h3 : inp'.H_bc with
      | none => rw [h2, h3] at hg; simp at hg
      | some f' => exact hv f f' h2 h3 i hi
  · exact balanced_copy c c' cp iso sg si sp sc e wk wk' (fun _ _ => rfl) hi (hf ((cp.bc i hi).trans hbc))

/-! ### One call on the copy -/

theorem intRel_copy {U V W X Y Z U' V' W' X' Y' Z' : ℕ → ℝ} {mn mx hu hd mn' mx' hu' hd' : ℝ} {n n' : ℕ}
    {back back' : Bool} {h Q h' Q' : ℕ → ℝ} (hn : 1 ≤ n)
    (ef : ∀ j, j < n → U' j = U j ∧ V' j = V j ∧ W' j = W j)
    (eb : ∀ j, j < n → X' j = X j ∧ Y' j = Y j ∧ Z' j = Z j) (e1 : mn' = mn) (e2 : mx' = mx) (e3 : hu' = hu)
    (e4 : hd' = hd) (e5 : n' = n) (e6 : back' = back)
    (R : IntRel U V W X Y Z mn mx hu hd n back h Q)
    (R' : IntRel U' V' W' X' Y' Z' mn' mx' hu' hd' n' back' h' Q') :
    (∀ j, j ≤ n → h' j = h j) ∧ (∀ j, j < n → Q' j = Q j) := by
  subst e1 e2 e3 e4 e5 e6
  exact intRel_unique hn ef eb R' R

theorem shows_advance (c : m.Consistent) (c' : m'.Consistent) (cp : Copy m P m' P' φ)
    (sg : ShowsGeo m m' φ G G') (si : ShowsInputs m m' φ inp inp')
    (sc : ShowsState m m' φ cur cur') (e : ShowsCoef m m' φ co co') (wk wk' : Work) {x x' : ℕ → ℝ}
    (hx : ∀ j, j < m.M → x' (φ.J j) = x j) :
    ShowsState m m' φ (m.advance G inp wk cur co x) (m'.advance G' inp' wk' cur' co' x') := by
  have hH : ∀ i, i < m.M → clipHead m'.z_inv m'.max_depth x' (φ.J i) = clipHead m.z_inv m.max_depth x i := by
    intro i hi; unfold clipHead; rw [hx i hi, cp.z_inv i hi, cp.max_depth i hi]
  have er : ∀ k, k < m.ix.NK → m'.endRec wk' co' (φ.K k) = m.endRec wk co k := fun k hk =>
    (shows_sweeps c c' cp wk wk' hk (e k hk)).2.2
  have inn : ∀ k, k < m.ix.NK → _ := fun k hk => by
    have R := numbaSolveInternals_spec (m.fwd wk co) (m.bwd wk co) m.min_depth m.max_depth_k
      (fun k => huk (m.endRec wk co k) (m.headCoef G cur k) (clipHead m.z_inv m.max_depth x (m.Ju k))
        (clipHead m.z_inv m.max_depth x (m.Jd k)))
      (fun k => hdk (m.endRec wk co k) (m.headCoef G cur k) (clipHead m.z_inv m.max_depth x (m.Ju k))
        (clipHead m.z_inv m.max_depth x (m.Jd k)))
      m.ix.i_1k m.ix.I_1k m.ix.nk m.ix.NK m.back ⟨cur.h, cur.Q⟩ c.layout k hk
    have R' := numbaSolveInternals_spec (m'.fwd wk' co') (m'.bwd wk' co') m'.min_depth m'.max_depth_k
      (fun k => huk (m'.endRec wk' co' k) (m'.headCoef G' cur' k) (clipHead m'.z_inv m'.max_depth x' (m'.Ju k))
        (clipHead m'.z_inv m'.max_depth x' (m'.Jd k)))
      (fun k => hdk (m'.endRec wk' co' k) (m'.headCoef G' cur' k) (clipHead m'.z_inv m'.max_depth x' (m'.Ju k))
        (clipHead m'.z_inv m'.max_depth x' (m'.Jd k)))
      m'.ix.i_1k m'.ix.I_1k m'.ix.nk m'.ix.NK m'.back ⟨cur'.h, cur'.Q⟩ c'.layout (φ.K k) (cp.K_lt k hk)
    obtain ⟨F, B, -⟩ := shows_sweeps c c' cp wk wk' hk (e k hk)
    refine intRel_copy (c.layout.pos k hk) F B cp.md (cp.max_depth_k k hk) ?_ ?_ (cp.nk k hk) cp.back R R'
    · rw [er k hk, shows_headCoef c cp sg sc hk, cp.Ju k hk, cp.Jd k hk, hH _ (c.Ju k hk), hH _ (c.Jd k hk)]
    · rw [er k hk, shows_headCoef c cp sg sc hk, cp.Ju k hk, cp.Jd k hk, hH _ (c.Ju k hk), hH _ (c.Jd k hk)]
  refine ⟨hH, fun k hk j hj => ?_, fun k hk j hj => (inn k hk).2 j hj, fun k hk => ?_, fun k hk => ?_,
    fun k hk => ?_, fun k hk => ?_, fun k hk => ?_⟩
  · have : ∀ v v' mn mn' : ℝ, v = v' → mn = mn' → (if v < mn then mn else v) = (if v' < mn' then mn' else v') := by
      intro v v' mn mn' h h'; rw [h, h']
    exact this _ _ _ _ ((inn k hk).1 j hj) cp.md
  all_goals simp only [Model.advance]
  · rw [er k hk, shows_headCoef c cp sg sc hk, cp.Ju k hk, cp.Jd k hk, hH _ (c.Ju k hk), hH _ (c.Jd k hk)]
  · rw [er k hk, shows_headCoef c cp sg sc hk, cp.Ju k hk, cp.Jd k hk, hH _ (c.Ju k hk), hH _ (c.Jd k hk)]
  · rw [cp.g, sg.Ao k hk, cp.Co k hk, cp.Juo k hk, cp.Jdo k hk, hH _ (c.Juo k hk), hH _ (c.Jdo k hk), si.u_o k hk,
      sg.V _ (c.Juo k hk), sg.V _ (c.Jdo k hk), si.dt, cp.orifice k hk]
  · rw [cp.Juw k hk, cp.Jdw k hk, hH _ (c.Juw k hk), hH _ (c.Jdw k hk), si.u_w k hk, cp.weir k hk]
  · rw [cp.Jup k hk, cp.Jdp k hk, hH _ (c.Jup k hk), hH _ (c.Jdp k hk), si.u_p k hk, cp.pump k hk]

/-- One call: the large network computes on the copy what the small one computes. -/
theorem shows_call (sd : Sound m P) (gi : GoodInputs m P inp) {o o' o1 o1' : Obj} (go : GoodObj m o)
    (c' : m'.Consistent) (cw' : CleanWork m' o'.wk.mats) (lt : LinkTables m P) (lt' : LinkTables m' P')
    (cp : Copy m P m' P' φ) (iso : Isolated m m' φ) (sh : Shows m m' φ o o') (si : ShowsInputs m m' φ inp inp')
    {first : Bool} (h : Calls1 m P first inp o o1) (h' : Calls1 m' P' first inp' o' o1') :
    Shows m m' φ o1 o1' ∧ CleanWork m' o1'.wk.mats := by
  obtain ⟨Ao, co, x, hA, p, rfl⟩ := h
  obtain ⟨Ao', co', x', hA', p', rfl⟩ := h'
  have c := sd.cons
  have eA : ∀ a, a < m.n_o → Ao' (φ.O a) = Ao a := fun a ha => by
    have e := hA a ha
    have e' := hA' _ (cp.O_lt a ha)
    have ed : m'.orificeDepth o'.cur (φ.O a) = m.orificeDepth o.cur a := by
      unfold Model.orificeDepth
      rw [cp.Juo a ha, cp.Jdo a ha, sh.cur.H _ (c.Juo a ha), sh.cur.H _ (c.Jdo a ha), cp.orifice a ha]
    rw [sh.Ao a ha, cp.oShape a ha, cp.oGP a ha, ed, si.u_o a ha, e] at e'
    exact (Except.ok.inj e').symm
  have sg := shows_geoOf c lt lt' cp sh.thu sh.thd eA sh.cur
  have sp : ShowsState m m' φ (if first then o.cur else o.saved) (if first then o'.cur else o'.saved) := by
    cases first
    · exact sh.saved
    · exact sh.cur
  have e : ShowsCoef m m' φ co co' := fun k hk =>
    shows_coefs c c' lt.toStartTables lt'.toStartTables cp sg si sp sh.cur p.coefs p'.coefs hk
  have s1 := solves_copy c c' cp iso sg si sp sh.cur e go.clean cw' p'.solve
  have hx := (C06_step c (physical_geoOf sd gi o.hid Ao go.wet) go.clean p.coefs _).2 _ _ s1 p.solve
  refine ⟨⟨shows_advance c c' cp sg si sh.cur e _ _ hx, sp, fun k hk => ?_, fun k hk => ?_, fun k hk => ?_⟩,
    cw'.next⟩
  · simp only [Model.nextHidden, upTo_of_lt _ hk, upTo_of_lt _ (cp.K_lt k hk)]
    rw [cp.Ju k hk, sh.cur.H _ (c.Ju k hk), cp.z_uk k hk]
  · simp only [Model.nextHidden, upTo_of_lt _ hk, upTo_of_lt _ (cp.K_lt k hk)]
    rw [cp.Jd k hk, sh.cur.H _ (c.Jd k hk), cp.z_dk k hk]
  · simp only [Model.nextHidden, upTo_of_lt _ hk, upTo_of_lt _ (cp.O_lt k hk)]
    exact eA k hk

/-- **C109.** A part of a network to which nothing else is attached behaves as if it were simulated alone:
through every sequence of calls, the large network shows on the copy exactly the states of the small one —
heads, depths, flows, control flows. The large network need not be sound elsewhere; it only has to have
consistent tables and to complete its steps. -/
theorem C109_isolated_part (sd : Sound m P) (c' : m'.Consistent) (lt : LinkTables m P) (lt' : LinkTables m' P')
    (cp : Copy m P m' P' φ) (iso : Isolated m m' φ) {l l' : List (Bool × Inputs)}
    (sl : ShowsCalls m m' φ l l') (hl : ∀ q ∈ l, GoodInputs m P q.2) {o o' a a' : Obj} (go : GoodObj m o)
    (cw' : CleanWork m' o'.wk.mats) (sh : Shows m m' φ o o') (r : History m P l o a)
    (r' : History m' P' l' o' a') : Shows m m' φ a a' := by
  induction sl generalizing o o' with
  | nil => cases r; cases r'; exact sh
  | cons si _ ih =>
    obtain ⟨o1, h1, r⟩ := r
    obtain ⟨o1', h1', r'⟩ := r'
    have gi := hl _ List.mem_cons_self
    obtain ⟨s1, w1⟩ := shows_call sd gi go c' cw' lt lt' cp iso sh si h1 h1'
    exact ih (fun q h => hl q (List.mem_cons_of_mem _ h)) (go.next sd.cons h1) w1 s1 r r'

/-! ### Order of rows -/

/-- The same network with the rows of its tables in another order. -/
structure Reordered (m : Model) (P : Plan) (m' : Model) (P' : Plan) (φ : Places) : Prop extends
    Copy m P m' P' φ where
  NK : m'.ix.NK = m.ix.NK
  n_o : m'.n_o = m.n_o
  n_w : m'.n_w = m.n_w
  n_p : m'.n_p = m.n_p

/-- An injective renumbering of `n` rows hits every row. -/
theorem renumber_surj {n : ℕ} {ψ : ℕ → ℕ} (lt : ∀ k, k < n → ψ k < n)
    (inj : ∀ i j, i < n → j < n → ψ i = ψ j → i = j) {k' : ℕ} (hk' : k' < n) : ∃ k, k < n ∧ ψ k = k' := by
  classical
  have hs : (Finset.range n).image ψ ⊆ Finset.range n := by
    intro x hx
    obtain ⟨k, hk, rfl⟩ := Finset.mem_image.mp hx
    exact Finset.mem_range.mpr (lt k (Finset.mem_range.mp hk))
  have hc : ((Finset.range n).image ψ).card = (Finset.range n).card :=
    Finset.card_image_of_injOn fun i hi j hj e => inj i j (by simpa using hi) (by simpa using hj) e
  have he := Finset.eq_of_subset_of_card_le hs hc.ge
  have : k' ∈ (Finset.range n).image ψ := by rw [he]; exact Finset.mem_range.mpr hk'
  obtain ⟨k, hk, e⟩ := Finset.mem_image.mp this
  exact ⟨k, Finset.mem_range.mp hk, e⟩

theorem Reordered.isolated (r : Reordered m P m' P' φ) : Isolated m m' φ where
  K := fun _ h _ => renumber_surj (fun k hk => r.NK ▸ r.K_lt k hk) r.K_inj (r.NK ▸ h)
  O := fun _ h _ => renumber_surj (fun k hk => r.n_o ▸ r.O_lt k hk) r.O_inj (r.n_o ▸ h)
  W := fun _ h _ => renumber_surj (fun k hk => r.n_w ▸ r.W_lt k hk) r.W_inj (r.n_w ▸ h)
  P := fun _ h _ => renumber_surj (fun k hk => r.n_p ▸ r.P_lt k hk) r.P_inj (r.n_p ▸ h)

/-- **C108.** The order of the rows in the tables of superjunctions, superlinks, orifices, weirs and pumps is
irrelevant: two models which differ only in it show the same states, at the corresponding rows, through
every sequence of calls with corresponding inputs. -/
theorem C108_order_of_rows (sd : Sound m P) (c' : m'.Consistent) (lt : LinkTables m P) (lt' : LinkTables m' P')
    (re : Reordered m P m' P' φ) {l l' : List (Bool × Inputs)}
    (sl : ShowsCalls m m' φ l l') (hl : ∀ q ∈ l, GoodInputs m P q.2) {o o' a a' : Obj} (go : GoodObj m o)
    (cw' : CleanWork m' o'.wk.mats) (sh : Shows m m' φ o o') (r : History m P l o a)
    (r' : History m' P' l' o' a') : Shows m m' φ a a' :=
  C109_isolated_part sd c' lt lt' re.toCopy re.isolated sl hl go cw' sh r r'

/-! ### Influences from elsewhere -/

/-- Two states of the large network agree on the copy. -/
structure StateOn (m m' : Model) (φ : Places) (s s' : Hyd) : Prop where
  H : ∀ j, j < m.M → s.H (φ.J j) = s'.H (φ.J j)
  h : ∀ k, k < m.ix.NK → ∀ j, j ≤ m.ix.nk k → s.h (m'.ix.I_1k (φ.K k) + j) = s'.h (m'.ix.I_1k (φ.K k) + j)
  Q : ∀ k, k < m.ix.NK → ∀ j, j < m.ix.nk k → s.Q (m'.ix.i_1k (φ.K k) + j) = s'.Q (m'.ix.i_1k (φ.K k) + j)
  Qu : ∀ k, k < m.ix.NK → s.Qu (φ.K k) = s'.Qu (φ.K k)
  Qd : ∀ k, k < m.ix.NK → s.Qd (φ.K k) = s'.Qd (φ.K k)
  Qo : ∀ k, k < m.n_o → s.Qo (φ.O k) = s'.Qo (φ.O k)
  Qw : ∀ k, k < m.n_w → s.Qw (φ.W k) = s'.Qw (φ.W k)
  Qp : ∀ k, k < m.n_p → s.Qp (φ.Pp k) = s'.Qp (φ.Pp k)

/-- Two objects of the large network agree on the copy. -/
structure ObjOn (m m' : Model) (φ : Places) (o o' : Obj) : Prop where
  cur : StateOn m m' φ o.cur o'.cur
  saved : StateOn m m' φ o.saved o'.saved
  thu : ∀ k, k < m.ix.NK → o.hid.thu (φ.K k) = o'.hid.thu (φ.K k)
  thd : ∀ k, k < m.ix.NK → o.hid.thd (φ.K k) = o'.hid.thd (φ.K k)
  Ao : ∀ k, k < m.n_o → o.hid.Ao (φ.O k) = o'.hid.Ao (φ.O k)

theorem shows_both {s t t' : Hyd} (h : ShowsState m m' φ s t) (h' : ShowsState m m' φ s t') :
    StateOn m m' φ t t' where
  H := fun j hj => (h.H j hj).trans (h'.H j hj).symm
  h := fun k hk j hj => (h.h k hk j hj).trans (h'.h k hk j hj).symm
  Q := fun k hk j hj => (h.Q k hk j hj).trans (h'.Q k hk j hj).symm
  Qu := fun j hj => (h.Qu j hj).trans (h'.Qu j hj).symm
  Qd := fun j hj => (h.Qd j hj).trans (h'.Qd j hj).symm
  Qo := fun j hj => (h.Qo j hj).trans (h'.Qo j hj).symm
  Qw := fun j hj => (h.Qw j hj).trans (h'.Qw j hj).symm
  Qp := fun j hj => (h.Qp j hj).trans (h'.Qp j hj).symm

theorem shows_on {s t t' : Hyd} (h : ShowsState m m' φ s t) (h' : StateOn m m' φ t t') :
    ShowsState m m' φ s t' where
  H := fun j hj => (h'.H j hj).symm.trans (h.H j hj)
  h := fun k hk j hj => (h'.h k hk j hj).symm.trans (h.h k hk j hj)
  Q := fun k hk j hj => (h'.Q k hk j hj).symm.trans (h.Q k hk j hj)
  Qu := fun j hj => (h'.Qu j hj).symm.trans (h.Qu j hj)
  Qd := fun j hj => (h'.Qd j hj).symm.trans (h.Qd j hj)
  Qo := fun j hj => (h'.Qo j hj).symm.trans (h.Qo j hj)
  Qw := fun j hj => (h'.Qw j hj).symm.trans (h.Qw j hj)
  Qp := fun j hj => (h'.Qp j hj).symm.trans (h.Qp j hj)

/-- Entries of the small network read off arrays of the large one; `d` where there is none. -/
noncomputable def pull (NK : ℕ) (len base base' : ℕ → ℕ) (f : ℕ → ℝ) (d : ℝ) (I : ℕ) : ℝ :=
  open Classical in
  if h : ∃ q : ℕ × ℕ, q.1 < NK ∧ q.2 < len q.1 ∧ I = base q.1 + q.2 then f (base' h.choose.1 + h.choose.2) else d

theorem pull_at {NK : ℕ} {len base base' : ℕ → ℕ} {f : ℕ → ℝ} {d : ℝ}
    (dis : ∀ k k', k < NK → k' < NK → k ≠ k' → ∀ j j', j < len k → j' < len k' → base k + j ≠ base k' + j')
    {k j : ℕ} (hk : k < NK) (hj : j < len k) : pull NK len base base' f d (base k + j) = f (base' k + j) := by
  have ex : ∃ q : ℕ × ℕ, q.1 < NK ∧ q.2 < len q.1 ∧ base k + j = base q.1 + q.2 := ⟨(k, j), hk, hj, rfl⟩
  unfold pull
  rw [dif_pos ex]
  obtain ⟨h1, h2, h3⟩ := ex.choose_spec
  have e1 : ex.choose.1 = k := by
    by_contra hne
    exact dis _ _ hk h1 (Ne.symm hne) _ _ hj h2 h3
  rw [e1] at h3 ⊢
  rw [show ex.choose.2 = j by omega]

theorem pull_ge {NK : ℕ} {len base base' : ℕ → ℕ} {f : ℕ → ℝ} {d : ℝ} (h : ∀ I, d ≤ f I) (I : ℕ) :
    d ≤ pull NK len base base' f d I := by
  unfold pull
  split_ifs
  · exact h _
  · exact le_rfl

/-- The state of the small network which a state of the large one shows. -/
noncomputable def pullState (m m' : Model) (φ : Places) (s : Hyd) : Hyd where
  H := fun j => s.H (φ.J j)
  h := pull m.ix.NK (fun k => m.ix.nk k + 1) m.ix.I_1k (fun k => m'.ix.I_1k (φ.K k)) s.h m.min_depth
  Q := pull m.ix.NK m.ix.nk m.ix.i_1k (fun k => m'.ix.i_1k (φ.K k)) s.Q 0
  Qu := fun k => s.Qu (φ.K k)
  Qd := fun k => s.Qd (φ.K k)
  Qo := fun k => s.Qo (φ.O k)
  Qw := fun k => s.Qw (φ.W k)
  Qp := fun k => s.Qp (φ.Pp k)

theorem shows_pullState (c : m.Consistent) (s : Hyd) : ShowsState m m' φ (pullState m m' φ s) s where
  H := fun _ _ => rfl
  h := fun k hk j hj => (pull_at (len := fun k => m.ix.nk k + 1) (base' := fun k => m'.ix.I_1k (φ.K k))
    (fun k k' hk hk' hn j j' hj hj' => c.layout.junctions_disjoint k k' hk hk' hn j j' (by omega) (by omega)) hk
    (by omega)).symm
  Q := fun k hk j hj => (pull_at (base' := fun k => m'.ix.i_1k (φ.K k)) c.layout.links_disjoint hk hj).symm
  Qu := fun _ _ => rfl
  Qd := fun _ _ => rfl
  Qo := fun _ _ => rfl
  Qw := fun _ _ => rfl
  Qp := fun _ _ => rfl

/-- The inputs of the small network which inputs of the large one show. -/
noncomputable def pullInputs (m m' : Model) (φ : Places) (inp : Inputs) : Inputs where
  dt := inp.dt
  H_bc := inp.H_bc.map fun f j => f (φ.J j)
  Q_in := fun j => inp.Q_in (φ.J j)
  Q_0Ik := pull m.ix.NK (fun k => m.ix.nk k + 1) m.ix.I_1k (fun k => m'.ix.I_1k (φ.K k)) inp.Q_0Ik 0
  u_o := fun k => inp.u_o (φ.O k)
  u_w := fun k => inp.u_w (φ.W k)
  u_p := fun k => inp.u_p (φ.Pp k)

/-- Inputs of two calls of the large network agree on the copy. -/
structure InputsOn (m m' : Model) (φ : Places) (inp inp' : Inputs) : Prop where
  dt : inp.dt = inp'.dt
  given : inp.H_bc.isSome = inp'.H_bc.isSome
  H_bc : ∀ f f', inp.H_bc = some f → inp'.H_bc = some f' → ∀ j, j < m.M → f (φ.J j) = f' (φ.J j)
  Q_in : ∀ j, j < m.M → inp.Q_in (φ.J j) = inp'.Q_in (φ.J j)
  Q_0Ik : ∀ k, k < m.ix.NK → ∀ j, j ≤ m.ix.nk k →
    inp.Q_0Ik (m'.ix.I_1k (φ.K k) + j) = inp'.Q_0Ik (m'.ix.I_1k (φ.K k) + j)
  u_o : ∀ k, k < m.n_o → inp.u_o (φ.O k) = inp'.u_o (φ.O k)
  u_w : ∀ k, k < m.n_w → inp.u_w (φ.W k) = inp'.u_w (φ.W k)
  u_p : ∀ k, k < m.n_p → inp.u_p (φ.Pp k) = inp'.u_p (φ.Pp k)

theorem shows_pullInputs (c : m.Consistent) {inp inp' : Inputs} (e : InputsOn m m' φ inp inp') :
    ShowsInputs m m' φ (pullInputs m m' φ inp) inp' where
  dt := e.dt.symm
  given := by simp [pullInputs, e.given]
  H_bc := fun f f' hf hf' j hj => by
    cases h : inp.H_bc with
    | none => rw [pullInputs, h] at hf; simp at hf
    | some f0 =>
      rw [pullInputs, h] at hf
      simp only [Option.map_some, Option.some.injEq] at hf
      rw [← hf]
      exact (e.H_bc f0 f' h hf' j hj).symm
  Q_in := fun j hj => (e.Q_in j hj).symm
  Q_0Ik := fun k hk j hj => (e.Q_0Ik k hk j hj).symm.trans
    (pull_at (len := fun k => m.ix.nk k + 1) (base' := fun k => m'.ix.I_1k (φ.K k))
      (fun k k' hk hk' hn j j' hj hj' => c.layout.junctions_disjoint k k' hk hk' hn j j' (by omega) (by omega)) hk
      (by omega)).symm
  u_o := fun j hj => (e.u_o j hj).symm
  u_w := fun j hj => (e.u_w j hj).symm
  u_p := fun j hj => (e.u_p j hj).symm

/-- Calls of the large network that agree on the copy. -/
inductive CallsOn (m m' : Model) (φ : Places) : List (Bool × Inputs) → List (Bool × Inputs) → Prop
  | nil : CallsOn m m' φ [] []
  | cons {f : Bool} {inp inp' : Inputs} {l l' : List (Bool × Inputs)} :
    InputsOn m m' φ inp inp' → CallsOn m m' φ l l' → CallsOn m m' φ ((f, inp) :: l) ((f, inp') :: l')

/-- Positive step size, non-negative pump settings, round orifices not fully closed — on the copy. -/
structure GoodOn (m : Model) (P : Plan) (φ : Places) (inp : Inputs) : Prop where
  dt_pos : 0 < inp.dt
  u_p : ∀ p, p < m.n_p → 0 ≤ inp.u_p (φ.Pp p)
  u_o : ∀ a, a < m.n_o → P.oShape a = .circular ∨ P.oShape a = .elliptical →
    (P.oGP a).g1 * inp.u_o (φ.O a) ≠ 0

/-- **C110.** What happens elsewhere does not influence an isolated part: two runs of the same large network,
with inputs and starting states which agree on the part but are arbitrary elsewhere, agree on the part after
every sequence of calls. The part has to be sound; the rest of the network only has to complete its steps. -/
theorem C110_elsewhere (sd : Sound m P) (c' : m'.Consistent) (lt : LinkTables m P) (lt' : LinkTables m' P')
    (cp : Copy m P m' P' φ) (iso : Isolated m m' φ) {l l' : List (Bool × Inputs)}
    (sl : CallsOn m m' φ l l') (hl : ∀ q ∈ l, GoodOn m P φ q.2) {o o' a a' : Obj} (go : GoodObj m' o)
    (go' : GoodObj m' o') (sh : ObjOn m m' φ o o') (r : History m' P' l o a) (r' : History m' P' l' o' a') :
    ObjOn m m' φ a a' := by
  have c := sd.cons
  let s : Obj := ⟨pullState m m' φ o.saved, pullState m m' φ o.cur,
    ⟨⟨fun _ _ => 0, fun _ _ => 0, fun _ _ => 0, fun _ _ => 0⟩, ⟨fun _ => 0, fun _ => 0, fun _ => 0, fun _ => 0⟩,
      ⟨fun _ => 0, fun _ => 0, fun _ => 0, fun _ => 0⟩, fun _ => ⟨0, 0, 0⟩, fun _ => ⟨0, 0, 0⟩,
      fun _ => ⟨0, 0, 0⟩⟩,
    ⟨fun k => o.hid.thu (φ.K k), fun k => o.hid.thd (φ.K k), fun k => o.hid.Ao (φ.O k)⟩⟩
  have gs : GoodObj m s := by
    refine ⟨?_, fun I => ?_⟩
    · exact ⟨⟨fun _ _ _ _ => rfl⟩, ⟨fun _ _ _ _ => rfl, fun _ _ => rfl⟩, ⟨fun _ _ _ _ => rfl, fun _ _ => rfl⟩,
        ⟨fun _ _ _ _ => rfl, fun _ _ => rfl⟩⟩
    · have wet : ∀ I, m.min_depth ≤ o.cur.h I := fun I => cp.md ▸ go.wet I
      exact pull_ge (NK := m.ix.NK) (len := fun k => m.ix.nk k + 1) (base := m.ix.I_1k)
        (base' := fun k => m'.ix.I_1k (φ.K k)) wet I
  have s1 : Shows m m' φ s o := ⟨shows_pullState c _, shows_pullState c _, fun _ _ => rfl, fun _ _ => rfl,
    fun _ _ => rfl⟩
  have s2 : Shows m m' φ s o' := ⟨shows_on s1.cur sh.cur, shows_on s1.saved sh.saved,
    fun k hk => (sh.thu k hk).symm, fun k hk => (sh.thd k hk).symm, fun k hk => (sh.Ao k hk).symm⟩
  have calls : ∃ l0, ShowsCalls m m' φ l0 l ∧ ShowsCalls m m' φ l0 l' ∧ ∀ q ∈ l0, GoodInputs m P q.2 := by
    clear r r'
    induction sl with
    | nil => exact ⟨[], .nil, .nil, by simp⟩
    | @cons f inp inp' l l' e _ ih =>
      obtain ⟨l0, h1, h2, h3⟩ := ih fun q h => hl q (List.mem_cons_of_mem _ h)
      have g := hl _ List.mem_cons_self
      refine ⟨(f, pullInputs m m' φ inp) :: l0, .cons (shows_pullInputs c ?_) h1, .cons (shows_pullInputs c e) h2,
        fun q hq => ?_⟩
      · exact ⟨rfl, rfl, fun f f' h h' _ _ => by rw [h] at h'; rw [Option.some.inj h'], fun _ _ => rfl,
          fun _ _ _ _ => rfl, fun _ _ => rfl, fun _ _ => rfl, fun _ _ => rfl⟩
      · rcases List.mem_cons.mp hq with rfl | hq
        · exact ⟨g.dt_pos, g.u_p, g.u_o⟩
        · exact h3 q hq
  obtain ⟨l0, h1, h2, h3⟩ := calls
  obtain ⟨b, hb, -⟩ := C105_every_history_succeeds sd l0 h3 gs
  have e1 := C109_isolated_part sd c' lt lt' cp iso h1 h3 gs go.clean s1 hb r
  have e2 := C109_isolated_part sd c' lt lt' cp iso h2 h3 gs go'.clean s2 hb r'
  exact ⟨shows_both e1.cur e2.cur, shows_both e1.saved e2.saved,
    fun k hk => (e1.thu k hk).trans (e2.thu k hk).symm, fun k hk => (e1.thd k hk).trans (e2.thd k hk).symm,
    fun k hk => (e1.Ao k hk).trans (e2.Ao k hk).symm⟩

/-! ### Examples -/

/-- The network of `reModel` with its two superjunctions listed in the other order. -/
noncomputable def swapModel : Model := { reModel with Ju := fun _ => 1, Jd := fun _ => 0 }

def swapPlaces : Places := ⟨fun j => 1 - j, fun k => k, fun k => k, fun k => k, fun k => k⟩

theorem reTables : LinkTables reModel rePlan := by
  refine ⟨⟨?_, ?_⟩, ?_⟩ <;> simp [reModel, rePlan]

theorem swapTables : LinkTables swapModel rePlan := by
  refine ⟨⟨?_, ?_⟩, ?_⟩ <;> simp [swapModel, reModel, rePlan]

theorem swapConsistent : swapModel.Consistent := by
  have c := reConsistent
  exact ⟨c.layout, c.inN, c.nodes, by simp [swapModel, reModel], by simp [swapModel, reModel], c.Juo, c.Jdo, c.Juw,
    c.Jdw, c.Jup, c.Jdp⟩

theorem swapReordered : Reordered reModel rePlan swapModel rePlan swapPlaces := by
  constructor
  · constructor <;> simp [swapModel, reModel, swapPlaces, rePlan]
    intros; omega
  all_goals rfl

example {l l' : List (Bool × Inputs)} (sl : ShowsCalls reModel swapModel swapPlaces l l')
    (hl : ∀ q ∈ l, GoodInputs reModel rePlan q.2) {o o' a a' : Obj} (go : GoodObj reModel o)
    (cw' : CleanWork swapModel o'.wk.mats) (sh : Shows reModel swapModel swapPlaces o o')
    (r : History reModel rePlan l o a) (r' : History swapModel rePlan l' o' a') :
    a'.cur.H 0 = a.cur.H 1 :=
  (C108_order_of_rows reSound swapConsistent reTables swapTables swapReordered sl hl go cw' sh r r').cur.H 1
    (by simp [reModel])

/-- `reModel` beside another superlink, twice as long, between two further superjunctions, which comes first in
the tables. -/
noncomputable def besideModel : Model :=
  { reModel with
    N := 2
    M := 4
    ix := { NK := 2, nk := fun _ => 1, I_1k := fun k => 2 * k, i_1k := fun k => k }
    nix := { kI := fun I => I / 2, fwd := fun I => (I + 1) / 2, bwd := fun I => I / 2, isStart := fun I => I % 2 == 0,
             isEnd := fun I => I % 2 == 1 }
    linkStart := fun _ => true
    linkEnd := fun _ => true
    Ju := fun k => 2 * k
    Jd := fun k => 2 * k + 1
    dx := fun i => if i = 0 then 20 else 10 }

noncomputable def besidePlan : Plan := { rePlan with Ik := fun i => 2 * i }

def besidePlaces : Places := ⟨fun j => j + 2, fun _ => 1, fun k => k, fun k => k, fun k => k⟩

theorem besideTables : LinkTables besideModel besidePlan := by
  refine ⟨⟨?_, ?_⟩, ?_⟩ <;> simp [besideModel, reModel, besidePlan]

theorem besideConsistent : besideModel.Consistent := by
  refine ⟨⟨fun _ _ => ?_, fun k k' h h' hk => ?_, fun k k' h h' hk => ?_⟩, ?_, fun k hk => ⟨?_, ?_, ?_, ?_, ?_⟩,
    ?_, ?_, ?_, ?_, ?_, ?_, ?_, ?_⟩ <;> simp [besideModel, reModel] at * <;> try omega

theorem besideCopy : Copy reModel rePlan besideModel besidePlan besidePlaces := by
  constructor <;> simp [besideModel, reModel, besidePlaces, besidePlan, rePlan]
  intros; omega

theorem besideIsolated : Isolated reModel besideModel besidePlaces := by
  refine ⟨fun k' h ⟨j, hj, e⟩ => ⟨0, by simp [reModel], ?_⟩, fun k' h => ?_, fun k' h => ?_, fun k' h => ?_⟩
  · simp only [besideModel, besidePlaces, reModel] at *
    omega
  all_goals simp [besideModel, reModel] at h

example {l l' : List (Bool × Inputs)} (sl : ShowsCalls reModel besideModel besidePlaces l l')
    (hl : ∀ q ∈ l, GoodInputs reModel rePlan q.2) {o o' a a' : Obj} (go : GoodObj reModel o)
    (cw' : CleanWork besideModel o'.wk.mats) (sh : Shows reModel besideModel besidePlaces o o')
    (r : History reModel rePlan l o a) (r' : History besideModel besidePlan l' o' a') :
    a'.cur.Qu 1 = a.cur.Qu 0 :=
  (C109_isolated_part reSound besideConsistent reTables besideTables besideCopy besideIsolated sl hl go cw' sh r
    r').cur.Qu 0 (by simp [reModel])

/-- Head `Hb'` instead of `Hb` prescribed at the ends of the longer superlink, and an inflow there. -/
noncomputable def farInp (Hb Hb' : ℝ) : Inputs :=
  { reInp Hb with
    H_bc := some fun j => if j < 2 then Hb' else Hb
    Q_in := fun j => if j < 2 then 3 else 0 }

theorem farOn (Hb Hb' : ℝ) : InputsOn reModel besideModel besidePlaces (farInp Hb Hb') (reInp Hb) := by
  constructor <;> try simp [farInp, reInp, besidePlaces]

/-- Nothing changes in the other superlink. -/
example {o o' a a' : Obj} (Hb Hb' : ℝ) (go : GoodObj besideModel o) (go' : GoodObj besideModel o')
    (sh : ObjOn reModel besideModel besidePlaces o o')
    (r : History besideModel besidePlan [(true, farInp Hb Hb')] o a)
    (r' : History besideModel besidePlan [(true, reInp Hb)] o' a') : a.cur.Qu 1 = a'.cur.Qu 1 := by
  refine (C110_elsewhere reSound besideConsistent reTables besideTables besideCopy besideIsolated
    (.cons (farOn Hb Hb') .nil) ?_ go go' sh r r').cur.Qu 0 (by simp [reModel])
  intro q hq
  obtain rfl := List.mem_singleton.mp hq
  exact ⟨by norm_num [farInp, reInp], by simp [reModel], by simp [reModel]⟩

end Pipedream.Step
