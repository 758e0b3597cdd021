import Verif.QualityLinear

/-!
# How the network was entered does not matter to the water quality (C118)

A second network whose superjunctions, superlinks and controls are those of a part of the first, listed in another
order and with some superlinks entered from their other end. The part has to be complete: every superlink and control
that ends at one of its superjunctions belongs to it.
-/

namespace Pipedream.Quality

open Pipedream.Network Pipedream.Link Pipedream.Sweep

variable {K : Type*} [Field K] [LinearOrder K] [IsStrictOrderedRing K]

/-! ### Specification -/

/-- Where the rows of the second network are found in the first; `rev k`: superlink `k` was entered from its other end. -/
structure Recast where
  sj : ℕ → ℕ
  sl : ℕ → ℕ
  rev : ℕ → Bool
  orf : ℕ → ℕ
  wr : ℕ → ℕ
  pm : ℕ → ℕ

/-- Link `j` of superlink `k` of the second network, in the first. -/
def Recast.link (r : Recast) (w : Wiring) (k j : ℕ) : ℕ :=
  w.ix.i_1k (r.sl k) + (if r.rev k then w.ix.nk (r.sl k) - 1 - j else j)

/-- Junction `j` of superlink `k` of the second network, in the first. -/
def Recast.node (r : Recast) (w : Wiring) (k j : ℕ) : ℕ :=
  w.ix.I_1k (r.sl k) + (if r.rev k then w.ix.nk (r.sl k) - j else j)

/-- `f` and `g` are values at the upstream and downstream ends of the first network: the one at the upstream end in the
second network. -/
def Recast.pick {α : Type*} (r : Recast) (k : ℕ) (f g : ℕ → α) : α := if r.rev k then g (r.sl k) else f (r.sl k)

/-- Control `m` of one list is control `e m` of the other, between the same superjunctions; no other control ends at a
superjunction of the part. -/
structure SameControls (M' : ℕ) (sj : ℕ → ℕ) (n n' : ℕ) (e Ju Jd Ju' Jd' : ℕ → ℕ) : Prop where
  lt : ∀ m, m < n' → e m < n
  inj : ∀ a b, a < n' → b < n' → e a = e b → a = b
  u : ∀ m, m < n' → Ju (e m) = sj (Ju' m)
  d : ∀ m, m < n' → Jd (e m) = sj (Jd' m)
  complete : ∀ m, m < n → (∃ i, i < M' ∧ (Ju m = sj i ∨ Jd m = sj i)) → ∃ a, a < n' ∧ e a = m

/-- The second network is a complete part of the first. -/
structure Recast.Part (r : Recast) (w w' : Wiring) : Prop where
  sj_lt : ∀ i, i < w'.M → r.sj i < w.M
  sj_inj : ∀ a b, a < w'.M → b < w'.M → r.sj a = r.sj b → a = b
  bc : ∀ i, i < w'.M → w'.bc i = w.bc (r.sj i)
  sl_lt : ∀ k, k < w'.ix.NK → r.sl k < w.ix.NK
  sl_inj : ∀ a b, a < w'.ix.NK → b < w'.ix.NK → r.sl a = r.sl b → a = b
  nk : ∀ k, k < w'.ix.NK → w'.ix.nk k = w.ix.nk (r.sl k)
  u : ∀ k, k < w'.ix.NK → r.sj (w'.Ju k) = r.pick k w.Ju w.Jd
  d : ∀ k, k < w'.ix.NK → r.sj (w'.Jd k) = r.pick k w.Jd w.Ju
  complete : ∀ k, k < w.ix.NK → (∃ i, i < w'.M ∧ (w.Ju k = r.sj i ∨ w.Jd k = r.sj i)) →
    ∃ a, a < w'.ix.NK ∧ r.sl a = k
  o : SameControls w'.M r.sj w.n_o w'.n_o r.orf w.Juo w.Jdo w'.Juo w'.Jdo
  wr : SameControls w'.M r.sj w.n_w w'.n_w r.wr w.Juw w.Jdw w'.Juw w'.Jdw
  pm : SameControls w'.M r.sj w.n_p w'.n_p r.pm w.Jup w.Jdp w'.Jup w'.Jdp

/-- The second model shows the concentrations of the first. -/
structure Recast.Shows (r : Recast) (w w' : Wiring) (c c' : Conc K) : Prop where
  j : ∀ i, i < w'.M → c'.j i = c.j (r.sj i)
  I : ∀ k, k < w'.ix.NK → ∀ j, j ≤ w'.ix.nk k → c'.I (w'.ix.I_1k k + j) = c.I (r.node w k j)
  i : ∀ k, k < w'.ix.NK → ∀ j, j < w'.ix.nk k → c'.i (w'.ix.i_1k k + j) = c.i (r.link w k j)
  u : ∀ k, k < w'.ix.NK → c'.u k = r.pick k c.u c.d
  d : ∀ k, k < w'.ix.NK → c'.d k = r.pick k c.d c.u

/-- Flow `f` at one face, `g` at the mirrored face: entering a superlink from its other end reverses the sign. -/
def Recast.turn (r : Recast) (k : ℕ) (f g : K) : K := if r.rev k then -g else f

/-- The second model has the water, the coefficients and the inputs of the first. -/
structure Recast.SameStep (r : Recast) (w w' : Wiring) (e e' : StepData K) : Prop where
  dt : e'.y.dt = e.y.dt
  D : ∀ k, k < w'.ix.NK → ∀ j, j < w'.ix.nk k → e'.p.D (w'.ix.i_1k k + j) = e.p.D (r.link w k j)
  Kr : ∀ k, k < w'.ix.NK → ∀ j, j < w'.ix.nk k → e'.p.Kr (w'.ix.i_1k k + j) = e.p.Kr (r.link w k j)
  KrI : ∀ k, k < w'.ix.NK → ∀ j, j ≤ w'.ix.nk k → e'.p.KrI (w'.ix.I_1k k + j) = e.p.KrI (r.node w k j)
  Krj : ∀ i, i < w'.M → e'.p.Krj i = e.p.Krj (r.sj i)
  D_u : ∀ k, k < w'.ix.NK → e'.p.D_u k = r.pick k e.p.D_u e.p.D_d
  D_d : ∀ k, k < w'.ix.NK → e'.p.D_d k = r.pick k e.p.D_d e.p.D_u
  Q_up : ∀ k, k < w'.ix.NK → ∀ j, j < w'.ix.nk k →
    e'.y.Q_up (w'.ix.i_1k k + j) = r.turn k (e.y.Q_up (r.link w k j)) (e.y.Q_dn (r.link w k j))
  Q_dn : ∀ k, k < w'.ix.NK → ∀ j, j < w'.ix.nk k →
    e'.y.Q_dn (w'.ix.i_1k k + j) = r.turn k (e.y.Q_dn (r.link w k j)) (e.y.Q_up (r.link w k j))
  A : ∀ k, k < w'.ix.NK → ∀ j, j < w'.ix.nk k → e'.y.A (w'.ix.i_1k k + j) = e.y.A (r.link w k j)
  A_prev : ∀ k, k < w'.ix.NK → ∀ j, j < w'.ix.nk k → e'.y.A_prev (w'.ix.i_1k k + j) = e.y.A_prev (r.link w k j)
  dx : ∀ k, k < w'.ix.NK → ∀ j, j < w'.ix.nk k → e'.y.dx (w'.ix.i_1k k + j) = e.y.dx (r.link w k j)
  A_S : ∀ k, k < w'.ix.NK → ∀ j, j ≤ w'.ix.nk k → e'.y.A_S (w'.ix.I_1k k + j) = e.y.A_S (r.node w k j)
  h : ∀ k, k < w'.ix.NK → ∀ j, j ≤ w'.ix.nk k → e'.y.h (w'.ix.I_1k k + j) = e.y.h (r.node w k j)
  h_prev : ∀ k, k < w'.ix.NK → ∀ j, j ≤ w'.ix.nk k → e'.y.h_prev (w'.ix.I_1k k + j) = e.y.h_prev (r.node w k j)
  Qu_up : ∀ k, k < w'.ix.NK → e'.y.Qu_up k = r.turn k (e.y.Qu_up (r.sl k)) (e.y.Qd_dn (r.sl k))
  Qu_dn : ∀ k, k < w'.ix.NK → e'.y.Qu_dn k = r.turn k (e.y.Qu_dn (r.sl k)) (e.y.Qd_up (r.sl k))
  Qd_up : ∀ k, k < w'.ix.NK → e'.y.Qd_up k = r.turn k (e.y.Qd_up (r.sl k)) (e.y.Qu_dn (r.sl k))
  Qd_dn : ∀ k, k < w'.ix.NK → e'.y.Qd_dn k = r.turn k (e.y.Qd_dn (r.sl k)) (e.y.Qu_up (r.sl k))
  A_u : ∀ k, k < w'.ix.NK → e'.y.A_u k = r.pick k e.y.A_u e.y.A_d
  A_u_prev : ∀ k, k < w'.ix.NK → e'.y.A_u_prev k = r.pick k e.y.A_u_prev e.y.A_d_prev
  dx_u : ∀ k, k < w'.ix.NK → e'.y.dx_u k = r.pick k e.y.dx_u e.y.dx_d
  A_d : ∀ k, k < w'.ix.NK → e'.y.A_d k = r.pick k e.y.A_d e.y.A_u
  A_d_prev : ∀ k, k < w'.ix.NK → e'.y.A_d_prev k = r.pick k e.y.A_d_prev e.y.A_u_prev
  dx_d : ∀ k, k < w'.ix.NK → e'.y.dx_d k = r.pick k e.y.dx_d e.y.dx_u
  V : ∀ i, i < w'.M → e'.y.V i = e.y.V (r.sj i)
  V_prev : ∀ i, i < w'.M → e'.y.V_prev i = e.y.V_prev (r.sj i)
  Qo : ∀ m, m < w'.n_o → e'.y.Qo m = e.y.Qo (r.orf m)
  Qw : ∀ m, m < w'.n_w → e'.y.Qw m = e.y.Qw (r.wr m)
  Qp : ∀ m, m < w'.n_p → e'.y.Qp m = e.y.Qp (r.pm m)
  c_0j : ∀ i, i < w'.M → e'.inp.c_0j i = e.inp.c_0j (r.sj i)
  Q_0j : ∀ i, i < w'.M → e'.inp.Q_0j i = e.inp.Q_0j (r.sj i)
  c_0I : ∀ k, k < w'.ix.NK → ∀ j, j ≤ w'.ix.nk k → e'.inp.c_0I (w'.ix.I_1k k + j) = e.inp.c_0I (r.node w k j)
  Q_0I : ∀ k, k < w'.ix.NK → ∀ j, j ≤ w'.ix.nk k → e'.inp.Q_0I (w'.ix.I_1k k + j) = e.inp.Q_0I (r.node w k j)
  c_bc : (e.inp.c_bc = none ∧ e'.inp.c_bc = none) ∨
    ∃ b b', e.inp.c_bc = some b ∧ e'.inp.c_bc = some b' ∧ ∀ i, i < w'.M → b' i = b (r.sj i)

/-! ### Helpers -/

section

variable {r : Recast} {w w' : Wiring} {e e' : StepData K} {c c' n n' : Conc K}

theorem flux_turn (Q G a b : K) : flux (-Q) G b a = -flux Q G a b := by
  unfold flux upwind
  rcases lt_trichotomy Q 0 with h | h | h
  · rw [if_pos (by linarith), if_neg (by linarith)]; ring
  · subst h; simp; ring
  · rw [if_neg (by linarith), if_pos h]; ring

/-- Links. -/
theorem recast_link (R : r.Part w w') (S : r.SameStep w w' e e') (C : r.Shows w w' c c') (N : r.Shows w w' n n') {k : ℕ}
    (hk : k < w'.ix.NK) (T : LinkTransport w e.p e.y e.inp c n (r.sl k)) :
    ∀ j, j < w'.ix.nk k → CellEq e'.y.dt (e'.y.dx (w'.ix.i_1k k + j) * e'.y.A (w'.ix.i_1k k + j))
    (e'.y.dx (w'.ix.i_1k k + j) * e'.y.A_prev (w'.ix.i_1k k + j)) (e'.p.Kr (w'.ix.i_1k k + j))
    (c'.i (w'.ix.i_1k k + j)) (n'.i (w'.ix.i_1k k + j))
    (linkFluxDn e'.p e'.y (w'.ix.i_1k k + j) (n'.i (w'.ix.i_1k k + j)) (n'.I (w'.ix.I_1k k + (j + 1)))
      - linkFluxUp e'.p e'.y (w'.ix.i_1k k + j) (n'.I (w'.ix.I_1k k + j)) (n'.i (w'.ix.i_1k k + j))) 0 := by
  intro j hj
  have hn := R.nk k hk
  unfold linkFluxDn linkFluxUp
  rw [S.dt, S.dx k hk j hj, S.A k hk j hj, S.A_prev k hk j hj, S.Kr k hk j hj, C.i k hk j hj, N.i k hk j hj,
    N.I k hk j hj.le, N.I k hk (j + 1) hj, S.Q_up k hk j hj, S.Q_dn k hk j hj, S.D k hk j hj]
  cases hr : r.rev k with
  | false =>
    simp only [Recast.turn, Recast.link, Recast.node, hr, Bool.false_eq_true, if_false]
    exact T.link j (by omega)
  | true =>
    simp only [Recast.turn, Recast.link, Recast.node, hr, if_true]
    have h := T.link (w.ix.nk (r.sl k) - 1 - j) (by omega)
    unfold linkFluxDn linkFluxUp at h
    rw [flux_turn, flux_turn]
    rw [show w.ix.nk (r.sl k) - 1 - j + 1 = w.ix.nk (r.sl k) - j by omega] at h
    rw [show w.ix.nk (r.sl k) - (j + 1) = w.ix.nk (r.sl k) - 1 - j by omega]
    unfold CellEq at h ⊢
    linear_combination h

theorem recast_out (R : r.Part w w') (S : r.SameStep w w' e e') (N : r.Shows w w' n n') {k : ℕ}
    (hk : k < w'.ix.NK) {j : ℕ} (hj : j ≤ w'.ix.nk k) :
    nodeOut w' e'.p e'.y n' k j = if r.rev k then -nodeIn w e.p e.y n (r.sl k) (w.ix.nk (r.sl k) - j)
      else nodeOut w e.p e.y n (r.sl k) j := by
  have hn := R.nk k hk
  unfold nodeOut nodeIn
  by_cases hj' : j = w'.ix.nk k
  · rw [if_pos hj']
    unfold dFluxUp uFluxDn
    rw [S.Qd_up k hk, S.D_d k hk, S.A_d k hk, S.dx_d k hk, N.d k hk, N.I k hk j hj]
    cases hr : r.rev k with
    | false =>
      simp only [Recast.turn, Recast.pick, Recast.node, hr, Bool.false_eq_true, if_false]
      rw [if_pos (by omega)]
    | true =>
      simp only [Recast.turn, Recast.pick, Recast.node, hr, if_true]
      rw [if_pos (by omega), flux_turn]
  · rw [if_neg hj']
    have hj2 : j < w'.ix.nk k := by omega
    unfold linkFluxUp linkFluxDn
    rw [S.Q_up k hk j hj2, S.D k hk j hj2, S.A k hk j hj2, S.dx k hk j hj2, N.i k hk j hj2, N.I k hk j hj]
    cases hr : r.rev k with
    | false =>
      simp only [Recast.turn, Recast.link, Recast.node, hr, Bool.false_eq_true, if_false]
      rw [if_neg (by omega)]
    | true =>
      simp only [Recast.turn, Recast.link, Recast.node, hr, if_true]
      rw [if_neg (by omega), flux_turn, show w.ix.nk (r.sl k) - 1 - j = w.ix.nk (r.sl k) - j - 1 by omega]

theorem recast_in (R : r.Part w w') (S : r.SameStep w w' e e') (N : r.Shows w w' n n') {k : ℕ}
    (hk : k < w'.ix.NK) {j : ℕ} (hj : j ≤ w'.ix.nk k) :
    nodeIn w' e'.p e'.y n' k j = if r.rev k then -nodeOut w e.p e.y n (r.sl k) (w.ix.nk (r.sl k) - j)
      else nodeIn w e.p e.y n (r.sl k) j := by
  have hn := R.nk k hk
  unfold nodeOut nodeIn
  by_cases hj' : j = 0
  · subst hj'
    rw [if_pos rfl]
    unfold dFluxUp uFluxDn
    rw [S.Qu_dn k hk, S.D_u k hk, S.A_u k hk, S.dx_u k hk, N.u k hk, N.I k hk 0 hj]
    cases hr : r.rev k with
    | false => simp only [Recast.turn, Recast.pick, Recast.node, hr, Bool.false_eq_true, if_false, if_true]
    | true =>
      simp only [Recast.turn, Recast.pick, Recast.node, hr, if_true, Nat.sub_zero]
      rw [flux_turn]
  · rw [if_neg hj']
    have hj2 : j - 1 < w'.ix.nk k := by omega
    unfold linkFluxUp linkFluxDn
    rw [S.Q_dn k hk _ hj2, S.D k hk _ hj2, S.A k hk _ hj2, S.dx k hk _ hj2, N.i k hk _ hj2, N.I k hk j hj]
    cases hr : r.rev k with
    | false =>
      simp only [Recast.turn, Recast.link, Recast.node, hr, Bool.false_eq_true, if_false]
      rw [if_neg hj']
    | true =>
      simp only [Recast.turn, Recast.link, Recast.node, hr, if_true]
      rw [if_neg (by omega), flux_turn, show w.ix.nk (r.sl k) - 1 - (j - 1) = w.ix.nk (r.sl k) - j by omega]

/-- The equations of one superlink. -/
theorem recast_links (R : r.Part w w') (W' : Wired w') (S : r.SameStep w w' e e') (C : r.Shows w w' c c')
    (N : r.Shows w w' n n') {k : ℕ} (hk : k < w'.ix.NK) (T : LinkTransport w e.p e.y e.inp c n (r.sl k)) :
    LinkTransport w' e'.p e'.y e'.inp c' n' k := by
  have hn := R.nk k hk
  refine ⟨recast_link R S C N hk T, fun j hj => ?_, ?_, ?_⟩
  · rw [recast_out R S N hk hj, recast_in R S N hk hj, S.dt, S.A_S k hk j hj, S.h k hk j hj, S.h_prev k hk j hj,
      S.KrI k hk j hj, C.I k hk j hj, N.I k hk j hj, S.Q_0I k hk j hj, S.c_0I k hk j hj]
    cases hr : r.rev k with
    | false =>
      simp only [Recast.node, hr, Bool.false_eq_true, if_false]
      exact T.node j (by omega)
    | true =>
      simp only [Recast.node, hr, if_true]
      have h := T.node (w.ix.nk (r.sl k) - j) (by omega)
      unfold CellEq at h ⊢
      linear_combination h
  · unfold uFluxDn uFluxUp
    rw [S.dt, S.dx_u k hk, S.A_u k hk, S.A_u_prev k hk, C.u k hk, N.u k hk, N.I k hk 0 (Nat.zero_le _), S.Qu_up k hk,
      S.Qu_dn k hk, S.D_u k hk, N.j _ (W'.lu k hk), R.u k hk]
    cases hr : r.rev k with
    | false =>
      simp only [Recast.node, Recast.pick, Recast.turn, hr, Bool.false_eq_true, if_false]
      exact T.up
    | true =>
      simp only [Recast.node, Recast.pick, Recast.turn, hr, if_true, Nat.sub_zero]
      have h := T.dn
      unfold dFluxDn dFluxUp at h
      rw [flux_turn, flux_turn]
      unfold CellEq at h ⊢
      linear_combination h
  · unfold dFluxDn dFluxUp
    rw [S.dt, S.dx_d k hk, S.A_d k hk, S.A_d_prev k hk, C.d k hk, N.d k hk, N.I k hk _ le_rfl, S.Qd_up k hk,
      S.Qd_dn k hk, S.D_d k hk, N.j _ (W'.ld k hk), R.d k hk]
    cases hr : r.rev k with
    | false =>
      simp only [Recast.node, Recast.pick, Recast.turn, hr, Bool.false_eq_true, if_false, hn]
      exact T.dn
    | true =>
      simp only [Recast.node, Recast.pick, Recast.turn, hr, if_true, hn, Nat.sub_self]
      have h := T.up
      unfold uFluxDn uFluxUp at h
      rw [flux_turn, flux_turn]
      unfold CellEq at h ⊢
      linear_combination h

theorem recast_ctrl {M' : ℕ} {sj : ℕ → ℕ} {m m' : ℕ} {f Ju Jd Ju' Jd' : ℕ → ℕ} {Q Q' a a' : ℕ → K}
    (S : SameControls M' sj m m' f Ju Jd Ju' Jd') (hinj : ∀ x y, x < M' → y < M' → sj x = sj y → x = y)
    (hu : ∀ x, x < m' → Ju' x < M') (hd : ∀ x, x < m' → Jd' x < M') (hQ : ∀ x, x < m' → Q' x = Q (f x))
    (ha : ∀ x, x < M' → a' x = a (sj x)) {i : ℕ} (hi : i < M') :
    ctrlNet m' Ju' Jd' Q' a' i = ctrlNet m Ju Jd Q a (sj i) := by
  unfold ctrlNet
  refine Finset.sum_of_injOn f ?_ ?_ ?_ ?_
  · intro x hx y hy h
    exact S.inj x y (by simpa using hx) (by simpa using hy) h
  · intro x hx
    simpa using S.lt x (by simpa using hx)
  · intro x hx hno
    have hx : x < m := by simpa using hx
    have h1 : Ju x ≠ sj i := fun h => by
      obtain ⟨b, hb, rfl⟩ := S.complete x hx ⟨i, hi, .inl h⟩
      exact hno ⟨b, by simpa using hb, rfl⟩
    have h2 : Jd x ≠ sj i := fun h => by
      obtain ⟨b, hb, rfl⟩ := S.complete x hx ⟨i, hi, .inr h⟩
      exact hno ⟨b, by simpa using hb, rfl⟩
    rw [if_neg h1, if_neg h2, sub_zero]
  · intro x hx
    have hx : x < m' := by simpa using hx
    have e1 : (Ju (f x) = sj i) = (Ju' x = i) := by
      rw [S.u x hx]; exact propext ⟨hinj _ _ (hu x hx) hi, congrArg sj⟩
    have e2 : (Jd (f x) = sj i) = (Jd' x = i) := by
      rw [S.d x hx]; exact propext ⟨hinj _ _ (hd x hx) hi, congrArg sj⟩
    rw [hQ x hx, ha _ (hu x hx), ha _ (hd x hx), ← S.u x hx, ← S.d x hx]
    simp only [e1, e2]

theorem recast_net (R : r.Part w w') (W' : Wired w') (S : r.SameStep w w' e e')
    (N : r.Shows w w' n n') {i : ℕ} (hi : i < w'.M) :
    superNet w' e'.p e'.y n' i = superNet w e.p e.y n (r.sj i) := by
  unfold superNet
  rw [recast_ctrl R.o R.sj_inj W'.ou W'.od S.Qo N.j hi, recast_ctrl R.wr R.sj_inj W'.wu W'.wd S.Qw N.j hi,
    recast_ctrl R.pm R.sj_inj W'.pu W'.pd S.Qp N.j hi]
  congr 3
  refine Finset.sum_of_injOn r.sl ?_ ?_ ?_ ?_
  · intro x hx y hy h
    exact R.sl_inj x y (by simpa using hx) (by simpa using hy) h
  · intro x hx
    simpa using R.sl_lt x (by simpa using hx)
  · intro x hx hno
    have hx : x < w.ix.NK := by simpa using hx
    have h1 : w.Ju x ≠ r.sj i := fun h => by
      obtain ⟨b, hb, rfl⟩ := R.complete x hx ⟨i, hi, .inl h⟩
      exact hno ⟨b, by simpa using hb, rfl⟩
    have h2 : w.Jd x ≠ r.sj i := fun h => by
      obtain ⟨b, hb, rfl⟩ := R.complete x hx ⟨i, hi, .inr h⟩
      exact hno ⟨b, by simpa using hb, rfl⟩
    rw [if_neg h1, if_neg h2, sub_zero]
  · intro k hk
    have hk : k < w'.ix.NK := by simpa using hk
    have e1 : (w'.Ju k = i) = (r.pick k w.Ju w.Jd = r.sj i) := by
      rw [← R.u k hk]; exact propext ⟨congrArg r.sj, R.sj_inj _ _ (W'.lu k hk) hi⟩
    have e2 : (w'.Jd k = i) = (r.pick k w.Jd w.Ju = r.sj i) := by
      rw [← R.d k hk]; exact propext ⟨congrArg r.sj, R.sj_inj _ _ (W'.ld k hk) hi⟩
    unfold uFluxUp dFluxDn
    rw [S.A_u k hk, S.dx_u k hk, S.D_u k hk, S.Qu_up k hk, S.A_d k hk, S.dx_d k hk, S.D_d k hk, S.Qd_dn k hk,
      N.j _ (W'.lu k hk), R.u k hk, N.u k hk, N.j _ (W'.ld k hk), R.d k hk, N.d k hk]
    simp only [e1, e2]
    cases hr : r.rev k with
    | false => simp only [Recast.pick, Recast.turn, hr, Bool.false_eq_true, if_false]
    | true =>
      simp only [Recast.pick, Recast.turn, hr, if_true]
      rw [flux_turn, flux_turn]
      split_ifs <;> ring

theorem recast_bc (S : r.SameStep w w' e e') (C : r.Shows w w' c c') {i : ℕ} (hi : i < w'.M) :
    e'.inp.c_bc.getD c'.j i = e.inp.c_bc.getD c.j (r.sj i) := by
  rcases S.c_bc with ⟨h1, h2⟩ | ⟨b, b', h1, h2, h⟩
  · rw [h1, h2]; exact C.j i hi
  · rw [h1, h2]; exact h i hi

/-- The transport equations of the part. -/
theorem recast_transport (R : r.Part w w') (W' : Wired w') (S : r.SameStep w w' e e') (C : r.Shows w w' c c')
    (N : r.Shows w w' n n') (T : Transport w e.p e.y e.inp c n) : Transport w' e'.p e'.y e'.inp c' n' := by
  refine ⟨fun k hk => recast_links R W' S C N hk (T.links _ (R.sl_lt k hk)), fun i hi hb => ?_, fun i hi hb => ?_⟩
  · rw [N.j i hi, recast_bc S C hi]
    exact T.fixed _ (R.sj_lt i hi) (by rw [← R.bc i hi]; exact hb)
  · rw [recast_net R W' S N hi, S.dt, S.V i hi, S.V_prev i hi, S.Krj i hi, C.j i hi, N.j i hi, S.Q_0j i hi, S.c_0j i hi]
    exact T.super _ (R.sj_lt i hi) (by rw [← R.bc i hi]; exact hb)

/-- A second model showing given concentrations exists. -/
theorem exists_shows (W' : Wired w') (n : Conc K) : ∃ n', r.Shows w w' n n' := by
  obtain ⟨I, hI⟩ := glue (NK := w'.ix.NK) w'.ix.I_1k (fun k => w'.ix.nk k + 1)
    (fun k k' hk hk' hne j j' hj hj' => W'.layout.junctions_disjoint k k' hk hk' hne j j' (by omega) (by omega))
    (fun k j => n.I (r.node w k j))
  obtain ⟨i, hi⟩ := glue (NK := w'.ix.NK) w'.ix.i_1k w'.ix.nk W'.layout.links_disjoint (fun k j => n.i (r.link w k j))
  exact ⟨⟨fun x => n.j (r.sj x), I, i, fun k => r.pick k n.u n.d, fun k => r.pick k n.d n.u⟩, fun _ _ => rfl,
    fun k hk j hj => hI k hk j (by omega), fun k hk j hj => hi k hk j hj, fun _ _ => rfl, fun _ _ => rfl⟩

/-- Physical data stay physical in the part, provided no link is missing. -/
theorem recast_physical (R : r.Part w w') (S : r.SameStep w w' e e') (P : Physical w e.p e.y e.inp) :
    Physical w' e'.p e'.y e'.inp := by
  have lk : ∀ {k j}, k < w'.ix.NK → j < w'.ix.nk k → ∃ j', j' < w.ix.nk (r.sl k) ∧
      r.link w k j = w.ix.i_1k (r.sl k) + j' := fun {k j} hk hj => by
    have := R.nk k hk
    refine ⟨if r.rev k then w.ix.nk (r.sl k) - 1 - j else j, by split_ifs <;> omega, rfl⟩
  have nd : ∀ {k j}, k < w'.ix.NK → j ≤ w'.ix.nk k → ∃ j', j' ≤ w.ix.nk (r.sl k) ∧
      r.node w k j = w.ix.I_1k (r.sl k) + j' := fun {k j} hk hj => by
    have := R.nk k hk
    refine ⟨if r.rev k then w.ix.nk (r.sl k) - j else j, by split_ifs <;> omega, rfl⟩
  have pk : ∀ {k} {f g : ℕ → K}, 0 < f (r.sl k) → 0 < g (r.sl k) → 0 < r.pick k f g := fun {k f g} h1 h2 => by
    unfold Recast.pick; split_ifs <;> assumption
  have sl := R.sl_lt
  constructor
  · rw [S.dt]; exact P.dt
  · intro k hk j hj
    obtain ⟨j', h1, h2⟩ := lk hk hj
    rw [S.dx k hk j hj, h2]; exact P.dx _ (sl k hk) _ h1
  · intro k hk j hj
    obtain ⟨j', h1, h2⟩ := lk hk hj
    rw [S.A k hk j hj, h2]; exact P.A _ (sl k hk) _ h1
  · intro k hk j hj
    obtain ⟨j', h1, h2⟩ := lk hk hj
    rw [S.D k hk j hj, h2]; exact P.D _ (sl k hk) _ h1
  · intro k hk j hj
    obtain ⟨j', h1, h2⟩ := lk hk hj
    rw [S.Kr k hk j hj, h2]; exact P.Kr _ (sl k hk) _ h1
  · intro k hk j hj
    obtain ⟨j', h1, h2⟩ := nd hk hj
    rw [S.A_S k hk j hj, S.h k hk j hj, h2]; exact P.AS _ (sl k hk) _ h1
  · intro k hk j hj
    obtain ⟨j', h1, h2⟩ := nd hk hj
    rw [S.KrI k hk j hj, h2]; exact P.KrI _ (sl k hk) _ h1
  · intro k hk j hj
    obtain ⟨j', h1, h2⟩ := nd hk hj
    rw [S.Q_0I k hk j hj, h2]; exact P.Q0I _ (sl k hk) _ h1
  · intro k hk; rw [S.dx_u k hk]; exact pk (P.dxu _ (sl k hk)) (P.dxd _ (sl k hk))
  · intro k hk; rw [S.A_u k hk]; exact pk (P.Au _ (sl k hk)) (P.Ad _ (sl k hk))
  · intro k hk; rw [S.D_u k hk]; exact pk (P.Du _ (sl k hk)) (P.Dd _ (sl k hk))
  · intro k hk; rw [S.dx_d k hk]; exact pk (P.dxd _ (sl k hk)) (P.dxu _ (sl k hk))
  · intro k hk; rw [S.A_d k hk]; exact pk (P.Ad _ (sl k hk)) (P.Au _ (sl k hk))
  · intro k hk; rw [S.D_d k hk]; exact pk (P.Dd _ (sl k hk)) (P.Du _ (sl k hk))
  · intro i hi hb; rw [S.V i hi]; exact P.V _ (R.sj_lt i hi) (by rw [← R.bc i hi]; exact hb)
  · intro i hi hb; rw [S.Krj i hi]; exact P.Krj _ (R.sj_lt i hi) (by rw [← R.bc i hi]; exact hb)
  · intro i hi hb; rw [S.Q_0j i hi]; exact P.Q0j _ (R.sj_lt i hi) (by rw [← R.bc i hi]; exact hb)

/-- If a uniform non-zero field satisfies the transport equations without reactions, water is balanced. -/
theorem balance_of_uniform {p : Params K} {y : Hydro K} {inp : Inputs K} {v : K} (hv : v ≠ 0)
    (hK : ∀ i, p.Kr i = 0) (hKI : ∀ i, p.KrI i = 0) (hKj : ∀ i, p.Krj i = 0)
    (h0j : ∀ i, inp.c_0j i = v) (h0I : ∀ i, inp.c_0I i = v)
    (T : Transport w p y inp (Conc.const v) (Conc.const v)) : WaterBalance w y inp := by
  have cell : ∀ {V V_prev net Qn Q0 : K}, net = Qn * v →
      CellEq y.dt V V_prev 0 v v net (Q0 * v) → (V - V_prev) / y.dt + Qn = Q0 := by
    intro V V_prev net Qn Q0 h1 h2
    unfold CellEq at h2
    rw [h1] at h2
    have : ((V - V_prev) / y.dt + Qn) * v = Q0 * v := by linear_combination h2
    exact mul_right_cancel₀ hv this
  have ctrl : ∀ n Ju Jd Q i, ctrlNet n Ju Jd Q (fun _ => v) i = ctrlQ n Ju Jd Q i * v := by
    intro n Ju Jd Q i
    unfold ctrlNet ctrlQ
    rw [Finset.sum_mul]
    refine Finset.sum_congr rfl fun k _ => ?_
    rw [flux_const]
    split_ifs <;> ring
  refine ⟨fun k hk j hj => ?_, fun k hk j hj => ?_, fun k hk => ?_, fun k hk => ?_, fun i hi hb => ?_⟩
  · have h := (T.links k hk).link j hj
    rw [hK] at h
    simp only [Conc.const, linkFluxDn, linkFluxUp, flux_const, ← sub_mul] at h
    have := cell (Q0 := 0) (net := (_ - _) * v) rfl (by rw [zero_mul]; exact h)
    linear_combination this
  · have h := (T.links k hk).node j hj
    have e1 : nodeOut w p y (Conc.const v) k j = nodeQout w y k j * v := by
      unfold nodeOut nodeQout; split_ifs <;> simp only [Conc.const, dFluxUp, linkFluxUp, flux_const]
    have e2 : nodeIn w p y (Conc.const v) k j = nodeQin w y k j * v := by
      unfold nodeIn nodeQin; split_ifs <;> simp only [Conc.const, uFluxDn, linkFluxDn, flux_const]
    rw [e1, e2, h0I, hKI, ← sub_mul] at h
    have := cell rfl h
    linear_combination this
  · have h := (T.links k hk).up
    simp only [Conc.const, uFluxDn, uFluxUp, flux_const, ← sub_mul] at h
    have := cell (Q0 := 0) (net := (_ - _) * v) rfl (by rw [zero_mul]; exact h)
    linear_combination this
  · have h := (T.links k hk).dn
    simp only [Conc.const, dFluxDn, dFluxUp, flux_const, ← sub_mul] at h
    have := cell (Q0 := 0) (net := (_ - _) * v) rfl (by rw [zero_mul]; exact h)
    linear_combination this
  · have h := T.super i hi hb
    have e : superNet w p y (Conc.const v) i = superQ w y i * v := by
      unfold superNet superQ
      simp only [Conc.const, ctrl, uFluxUp, dFluxDn, flux_const, add_mul, Finset.sum_mul]
      congr 3
      refine Finset.sum_congr rfl fun k _ => ?_
      split_ifs <;> ring
    rw [e, h0j, hKj] at h
    exact cell rfl h

/-- The step with every concentration 1 and without reactions. -/
def StepData.ones (e : StepData K) : StepData K :=
  ⟨{ e.p with Kr := fun _ => 0, KrI := fun _ => 0, Krj := fun _ => 0 }, e.y,
    ⟨none, fun _ => 1, e.inp.Q_0j, fun _ => 1, e.inp.Q_0I⟩, e.x⟩

/-- Balanced water stays balanced in the part. -/
theorem recast_balance (R : r.Part w w') (W' : Wired w') (S : r.SameStep w w' e e') (B : WaterBalance w e.y e.inp) :
    WaterBalance w' e'.y e'.inp := by
  have S1 : r.SameStep w w' e.ones e'.ones :=
    { dt := S.dt, D := S.D, Kr := fun _ _ _ _ => rfl, KrI := fun _ _ _ _ => rfl, Krj := fun _ _ => rfl, D_u := S.D_u,
      D_d := S.D_d, Q_up := S.Q_up, Q_dn := S.Q_dn, A := S.A, A_prev := S.A_prev, dx := S.dx, A_S := S.A_S, h := S.h,
      h_prev := S.h_prev, Qu_up := S.Qu_up, Qu_dn := S.Qu_dn, Qd_up := S.Qd_up, Qd_dn := S.Qd_dn, A_u := S.A_u,
      A_u_prev := S.A_u_prev, dx_u := S.dx_u, A_d := S.A_d, A_d_prev := S.A_d_prev, dx_d := S.dx_d, V := S.V,
      V_prev := S.V_prev, Qo := S.Qo, Qw := S.Qw, Qp := S.Qp, c_0j := fun _ _ => rfl, Q_0j := S.Q_0j,
      c_0I := fun _ _ _ _ => rfl, Q_0I := S.Q_0I, c_bc := .inl ⟨rfl, rfl⟩ }
  have B1 : WaterBalance w e.ones.y e.ones.inp := ⟨B.link, B.node, B.up, B.dn, B.super⟩
  have T := C55_uniform_solves (p := e.ones.p) (v := 1) B1 (fun _ => rfl) (fun _ => rfl) (fun _ => rfl) (fun _ _ _ => rfl)
    (fun _ => rfl) (fun _ => rfl)
  have N : r.Shows w w' (Conc.const (1 : K)) (Conc.const 1) := by
    constructor <;> intros <;> simp [Conc.const, Recast.pick]
  have T' := recast_transport R W' S1 N N T
  have B' := balance_of_uniform one_ne_zero (fun _ => rfl) (fun _ => rfl) (fun _ => rfl) (fun _ => rfl) (fun _ => rfl) T'
  exact ⟨B'.link, B'.node, B'.up, B'.dn, B'.super⟩

theorem recast_allGe (R : r.Part w w') (C : r.Shows w w' c c') {m : K} (h : AllGe w m c) : AllGe w' m c' := by
  refine ⟨fun i hi => ?_, fun k hk j hj => ?_, fun k hk j hj => ?_, fun k hk => ?_, fun k hk => ?_⟩
  · rw [C.j i hi]; exact h.j _ (R.sj_lt i hi)
  · rw [C.I k hk j hj]
    have := R.nk k hk
    exact h.I _ (R.sl_lt k hk) _ (by split_ifs <;> omega)
  · rw [C.i k hk j hj]
    have := R.nk k hk
    exact h.i _ (R.sl_lt k hk) _ (by split_ifs <;> omega)
  · rw [C.u k hk]; unfold Recast.pick; split_ifs
    · exact h.d _ (R.sl_lt k hk)
    · exact h.u _ (R.sl_lt k hk)
  · rw [C.d k hk]; unfold Recast.pick; split_ifs
    · exact h.u _ (R.sl_lt k hk)
    · exact h.d _ (R.sl_lt k hk)

theorem recast_inGe (R : r.Part w w') (S : r.SameStep w w' e e') (C : r.Shows w w' c c') {m : K}
    (h : InGe w m e.inp c) : InGe w' m e'.inp c' := by
  refine ⟨fun i hi hb => ?_, fun i hi hb => ?_, fun k hk j hj => ?_⟩
  · rw [recast_bc S C hi]; exact h.bc _ (R.sj_lt i hi) (by rw [← R.bc i hi]; exact hb)
  · rw [S.Q_0j i hi, S.c_0j i hi]; exact h.j _ (R.sj_lt i hi) (by rw [← R.bc i hi]; exact hb)
  · rw [S.Q_0I k hk j hj, S.c_0I k hk j hj]
    have := R.nk k hk
    exact h.I _ (R.sl_lt k hk) _ (by split_ifs <;> omega)

theorem shows_congr {n1 n2 : Conc K} (N : r.Shows w w' n n1) (E : SameOn w' n1 n2) : r.Shows w w' n n2 :=
  ⟨fun i hi => (E.j i hi).symm.trans (N.j i hi), fun k hk j hj => (E.I k hk j hj).symm.trans (N.I k hk j hj),
    fun k hk j hj => (E.i k hk j hj).symm.trans (N.i k hk j hj), fun k hk => (E.u k hk).symm.trans (N.u k hk),
    fun k hk => (E.d k hk).symm.trans (N.d k hk)⟩

/-! ### C118 -/

/-- **C118, one step.** -/
theorem recast_step (R : r.Part w w') (W : Wired w) (W' : Wired w') {s s' : Conc K × Work K}
    (m : CleanMats w s.2.mats) (m' : CleanMats w' s'.2.mats) (C : AllGe w 0 s.1) (Sh : r.Shows w w' s.1 s'.1)
    (S : r.SameStep w w' e e') (G : GoodStep w e s) (x' : Solved w' e'.p e'.y e'.inp s'.2 s'.1 e'.x) :
    AllGe w 0 (advance w e.p 0 none e.y e.inp s.2 s.1 e.x) ∧
    r.Shows w w' (advance w e.p 0 none e.y e.inp s.2 s.1 e.x) (advance w' e'.p 0 none e'.y e'.inp s'.2 s'.1 e'.x) := by
  obtain ⟨T, N⟩ := step_exact W m C G
  have P' := recast_physical R S G.P
  have B' := recast_balance R W' S G.B
  obtain ⟨T', -⟩ := step_exact W' m' (recast_allGe R Sh C) ⟨P', B', recast_inGe R S Sh G.In, x'⟩
  obtain ⟨n', hn'⟩ := exists_shows (r := r) (w := w) W' (advance w e.p 0 none e.y e.inp s.2 s.1 e.x)
  exact ⟨N, shows_congr hn' (sameOn_of_transport W' P' B' (recast_transport R W' S Sh hn' T) T')⟩

/-- **C118.** A model of a complete part of the network, with its rows in any order and any of its superlinks entered
from their other end, shows at every step the concentrations of the first model. -/
theorem C118_entry (R : r.Part w w') (W : Wired w) (W' : Wired w') (ds : List (StepData K × StepData K))
    (s s' : Conc K × Work K) (m : CleanMats w s.2.mats) (m' : CleanMats w' s'.2.mats) (C : AllGe w 0 s.1)
    (Sh : r.Shows w w' s.1 s'.1) (S : ∀ d ∈ ds, r.SameStep w w' d.1 d.2) (G : GoodSteps w (ds.map fun d => d.1) s)
    (x' : SolvedRun w' 0 none (ds.map fun d => d.2) s') :
    r.Shows w w' (runSteps w 0 none (ds.map fun d => d.1) s).1 (runSteps w' 0 none (ds.map fun d => d.2) s').1 := by
  induction ds generalizing s s' with
  | nil => exact Sh
  | cons d ds ih =>
    simp only [List.map_cons, GoodSteps, SolvedRun, runSteps] at G x' ⊢
    obtain ⟨N, Sh'⟩ := recast_step R W W' m m' C Sh (S d List.mem_cons_self) G.1 x'.1
    exact ih _ _ (cleanMats_step m) (cleanMats_step m') N Sh' (fun d hd => S d (List.mem_cons_of_mem _ hd)) G.2 x'.2

end

/-! ### A concrete case

The network of `Ex` with its two superjunctions exchanged and its superlink entered from the other end. -/

namespace Ex

def swapped : Recast := ⟨fun i => 1 - i, fun k => k, fun _ => true, fun m => m, fun m => m, fun m => m⟩

def w2 : Wiring := { w with bc := fun i => i == 0, Juo := fun _ => 1, Jdo := fun _ => 0 }

def y2 : Hydro ℚ :=
  { y with Q_up := fun _ => -1, Q_dn := fun _ => -1, Qu_up := fun _ => -1, Qu_dn := fun _ => -1,
           Qd_up := fun _ => -1, Qd_dn := fun _ => -1 }

theorem part : swapped.Part w w2 := by
  refine ⟨?_, ?_, ?_, ?_, ?_, ?_, ?_, ?_, ?_, ⟨?_, ?_, ?_, ?_, ?_⟩, ⟨?_, ?_, ?_, ?_, ?_⟩, ⟨?_, ?_, ?_, ?_, ?_⟩⟩ <;>
    (simp [swapped, w, w2, Recast.pick]; try omega)

theorem wired2 : Wired w2 := by
  refine ⟨⟨fun _ _ => by simp [w, w2], ?_, ?_⟩, fun k hk => ⟨?_, ?_, ?_, ?_, ?_⟩, ?_, ?_, ?_, ?_, ?_, ?_, ?_, ?_⟩ <;>
    simp [w, w2] at * <;> omega

theorem same_step (x x' : ℕ → ℚ) : swapped.SameStep w w2 ⟨p, y, inp, x⟩ ⟨p, y2, inp, x'⟩ := by
  constructor
  case c_bc => exact .inr ⟨_, _, rfl, rfl, by simp⟩
  all_goals intros
  all_goals simp [swapped, w, w2, p, y, y2, inp, Recast.pick, Recast.turn]

example : ∃ d d' : StepData ℚ, swapped.Shows w w2 (runSteps w 0 none [d] (Conc.const 1, wk)).1
    (runSteps w2 0 none [d'] (Conc.const 1, wk)).1 := by
  obtain ⟨x, G⟩ := good inp rfl rfl 1 ⟨_, rfl, by simp⟩ (by simp [inp])
  have P' := recast_physical part (same_step x x) G.P
  have B' := recast_balance part wired2 (same_step x x) G.B
  have clean2 : CleanMats w2 wk.mats := cleanMats_zero w2
  obtain ⟨x', hx'⟩ := (C75_solvable (c := Conc.const (1 : ℚ)) (wk := wk) wired2 P' B' clean2).1
  refine ⟨⟨p, y, inp, x⟩, ⟨p, y2, inp, x'⟩, C118_entry part wired wired2 [(⟨p, y, inp, x⟩, ⟨p, y2, inp, x'⟩)] _ _ clean clean2
    (nonneg 1 (by norm_num)) ?_ ?_ ⟨G, trivial⟩ ⟨hx', trivial⟩⟩
  · constructor <;> intros <;> simp [Conc.const, Recast.pick]
  · intro d hd
    rw [List.mem_singleton] at hd
    subst hd
    exact same_step x x'

end Ex

end Pipedream.Quality
