import Verif.QualityNet

/-! # Signs of the water-quality coefficients and positivity of all pivots -/

set_option linter.unusedSectionVars false

namespace Pipedream.Quality

open Pipedream.Network Pipedream.Link Pipedream.Sweep

variable {K : Type*} [Field K] [LinearOrder K] [IsStrictOrderedRing K]

/-- Signs and row sums of the equations of one superlink. -/
structure Signs (q : QCoef K) (e : EndCoef K) (n : ℕ) : Prop where
  alpha : ∀ j, j < n → q.alpha j < 0
  chi : ∀ j, j < n → q.chi j < 0
  row : ∀ j, j < n → 0 < q.alpha j + q.beta j + q.chi j
  kappa : ∀ j, j ≤ n → q.kappa j < 0
  mu : ∀ j, j ≤ n → q.mu j < 0
  nrow : ∀ j, j ≤ n → 0 ≤ q.kappa j + q.lam j + q.mu j
  alpha_u : e.alpha_u < 0
  chi_u : e.chi_u < 0
  row_u : 0 < e.alpha_u + e.beta_u + e.chi_u
  alpha_d : e.alpha_d < 0
  chi_d : e.chi_d < 0
  row_d : 0 < e.alpha_d + e.beta_d + e.chi_d

/-- One elimination step: `(b, a, x)` link coefficients, `(k, l, m)` junction coefficients. -/
theorem elim_step {a b x k l m U W : K} (ha : a < 0) (hx : x < 0) (hr : 0 < a + b + x) (hk : k < 0)
    (hm : m < 0) (hn : 0 ≤ k + l + m) (_hU : 0 < U) (hW : 0 < W) (hUW : U + W < 1) :
    0 < l + k * U ∧ 0 < b + -a * m / (l + k * U) ∧
    0 < -x / (b + -a * m / (l + k * U)) ∧
    0 < a * k * W / ((b + -a * m / (l + k * U)) * (l + k * U)) ∧
    -x / (b + -a * m / (l + k * U)) + a * k * W / ((b + -a * m / (l + k * U)) * (l + k * U)) < 1 := by
  have hU1 : U < 1 := by linarith
  have hden : 0 < l + k * U := by nlinarith
  have hdm : 0 ≤ l + k * U + (m + k * W) := by nlinarith
  have hT : 0 < b + x + -a * (m + k * W) / (l + k * U) := by
    have h1 : -1 ≤ (m + k * W) / (l + k * U) := by
      rw [le_div_iff₀ hden]; linarith
    have h2 : -a * (m + k * W) / (l + k * U) = -a * ((m + k * W) / (l + k * U)) := by ring
    rw [h2]; nlinarith
  have hkW : 0 < a * k * W / (l + k * U) := div_pos (mul_pos (mul_pos_of_neg_of_neg ha hk) hW) hden
  have e1 : -a * (m + k * W) / (l + k * U) = -a * m / (l + k * U) - a * k * W / (l + k * U) := by ring
  rw [e1] at hT
  have hTp : 0 < b + -a * m / (l + k * U) := by linarith
  refine ⟨hden, hTp, div_pos (by linarith) hTp, div_pos (mul_pos (mul_pos_of_neg_of_neg ha hk) hW)
    (mul_pos hTp hden), ?_⟩
  have e2 : -x / (b + -a * m / (l + k * U)) + a * k * W / ((b + -a * m / (l + k * U)) * (l + k * U))
      = (-x + a * k * W / (l + k * U)) / (b + -a * m / (l + k * U)) := by
    have := hTp.ne'
    have := hden.ne'
    generalize b + -a * m / (l + k * U) = T at *
    field_simp
  rw [e2, div_lt_one hTp]
  linarith

/-- Forward sweep: positive pivots, and `U, W > 0` with `U + W < 1`. -/
theorem fwd_signs {q : QCoef K} {e : EndCoef K} {n : ℕ} {T U V W : ℕ → K} (S : Signs q e n)
    (R : FwdRel q n T U V W) :
    (∀ j, j < n → 0 < U j ∧ 0 < W j ∧ U j + W j < 1) ∧
    (∀ j, j + 1 < n → 0 < q.lam (j+1) + q.kappa (j+1) * U j ∧ 0 < T (j+1)) := by
  have key : ∀ j, j < n → 0 < U j ∧ 0 < W j ∧ U j + W j < 1 := by
    intro j
    induction j with
    | zero =>
      intro h
      have ha := S.alpha 0 h
      have hx := S.chi 0 h
      have hr := S.row 0 h
      have hb : 0 < q.beta 0 := by linarith
      rw [R.U0, R.W0, U_1k, W_1k, safeDivide_of_ne _ hb.ne', safeDivide_of_ne _ hb.ne']
      refine ⟨div_pos (by linarith) hb, div_pos (by linarith) hb, ?_⟩
      rw [← add_div, div_lt_one hb]; linarith
    | succ j ih =>
      intro h
      obtain ⟨h1, h2, h3⟩ := ih (by omega)
      obtain ⟨a1, a2, a3, a4, a5⟩ := elim_step (S.alpha (j+1) h) (S.chi (j+1) h) (S.row (j+1) h)
        (S.kappa (j+1) h.le) (S.mu (j+1) h.le) (S.nrow (j+1) h.le) h1 h2 h3
      have eT : T (j+1) = q.beta (j+1) + -q.alpha (j+1) * q.mu (j+1) / (q.lam (j+1) + q.kappa (j+1) * U j) := by
        rw [R.Ts j h, T_ik]; simp only [safeDivide_eq]
      rw [R.Us j h, R.Ws j h, U_Ik, W_Ik, eT]
      simp only [safeDivide_eq]
      exact ⟨a3, a4, a5⟩
  refine ⟨key, fun j h => ?_⟩
  obtain ⟨h1, h2, h3⟩ := key j (by omega)
  obtain ⟨a1, a2, -⟩ := elim_step (S.alpha (j+1) h) (S.chi (j+1) h) (S.row (j+1) h)
    (S.kappa (j+1) h.le) (S.mu (j+1) h.le) (S.nrow (j+1) h.le) h1 h2 h3
  refine ⟨a1, ?_⟩
  rw [R.Ts j h, T_ik]; simp only [safeDivide_eq]; exact a2

/-- Backward sweep: positive pivots, and `X, Z > 0` with `X + Z < 1`. -/
theorem bwd_signs {q : QCoef K} {e : EndCoef K} {n : ℕ} {O X Y Z : ℕ → K} (S : Signs q e n)
    (R : BwdRel q n O X Y Z) :
    (∀ j, j < n → 0 < X j ∧ 0 < Z j ∧ X j + Z j < 1) ∧
    (∀ j, j + 1 < n → 0 < q.lam (j+1) + q.mu (j+1) * X (j+1) ∧ 0 < O j) := by
  have key : ∀ m, ∀ j, j + m + 1 = n → 0 < X j ∧ 0 < Z j ∧ X j + Z j < 1 := by
    intro m
    induction m with
    | zero =>
      intro j hj
      obtain rfl : j = n - 1 := by omega
      have h : n - 1 < n := by omega
      have ha := S.alpha _ h
      have hx := S.chi _ h
      have hr := S.row _ h
      have hb : 0 < q.beta (n-1) := by linarith
      rw [R.Xn, R.Zn, U_1k, W_1k, safeDivide_of_ne _ hb.ne', safeDivide_of_ne _ hb.ne']
      refine ⟨div_pos (by linarith) hb, div_pos (by linarith) hb, ?_⟩
      rw [← add_div, div_lt_one hb]; linarith
    | succ m ih =>
      intro j hj
      have h : j + 1 < n := by omega
      obtain ⟨h1, h2, h3⟩ := ih (j+1) (by omega)
      obtain ⟨a1, a2, a3, a4, a5⟩ := elim_step (S.chi j (by omega)) (S.alpha j (by omega))
        (by have := S.row j (by omega); linarith : (0:K) < q.chi j + q.beta j + q.alpha j) (S.mu (j+1) h.le) (S.kappa (j+1) h.le)
        (by have := S.nrow (j+1) h.le; linarith : (0:K) ≤ q.mu (j+1) + q.lam (j+1) + q.kappa (j+1)) h1 h2 h3
      have eO : O j = q.beta j + -q.chi j * q.kappa (j+1) / (q.lam (j+1) + q.mu (j+1) * X (j+1)) := by
        rw [R.Os j (by omega) h, O_ik]; simp only [safeDivide_eq]
      rw [R.Xs j (by omega) h, R.Zs j (by omega) h, X_Ik, Z_Ik, eO]
      simp only [safeDivide_eq]
      exact ⟨a3, a4, a5⟩
  have key' : ∀ j, j < n → 0 < X j ∧ 0 < Z j ∧ X j + Z j < 1 :=
    fun j hj => key (n - 1 - j) j (by omega)
  refine ⟨key', fun j h => ?_⟩
  obtain ⟨h1, h2, h3⟩ := key' (j+1) h
  obtain ⟨a1, a2, -⟩ := elim_step (S.chi j (by omega)) (S.alpha j (by omega))
    (by have := S.row j (by omega); linarith : (0:K) < q.chi j + q.beta j + q.alpha j) (S.mu (j+1) h.le) (S.kappa (j+1) h.le)
    (by have := S.nrow (j+1) h.le; linarith : (0:K) ≤ q.mu (j+1) + q.lam (j+1) + q.kappa (j+1)) h1 h2 h3
  refine ⟨a1, ?_⟩
  rw [R.Os j (by omega) h, O_ik]; simp only [safeDivide_eq]; exact a2

theorem fwdPiv_of_signs {q : QCoef K} {e : EndCoef K} {n : ℕ} {T U V W : ℕ → K} (hn : 1 ≤ n) (S : Signs q e n)
    (R : FwdRel q n T U V W) : FwdPiv q n T U := by
  refine ⟨?_, fun j h => ((fwd_signs S R).2 j h).2.ne', fun j h => ((fwd_signs S R).2 j h).1.ne'⟩
  have ha := S.alpha 0 (by omega)
  have hx := S.chi 0 (by omega)
  have hr := S.row 0 (by omega)
  exact (show 0 < q.beta 0 by linarith).ne'

theorem bwdPiv_of_signs {q : QCoef K} {e : EndCoef K} {n : ℕ} {O X Y Z : ℕ → K} (hn : 1 ≤ n) (S : Signs q e n)
    (R : BwdRel q n O X Y Z) : BwdPiv q n O X := by
  refine ⟨?_, fun j h => ((bwd_signs S R).2 j h).2.ne', fun j h => ((bwd_signs S R).2 j h).1.ne'⟩
  have ha := S.alpha (n-1) (by omega)
  have hx := S.chi (n-1) (by omega)
  have hr := S.row (n-1) (by omega)
  exact (show 0 < q.beta (n-1) by linarith).ne'

/-- Ends of a superlink under the sign conditions. -/
structure EndSigns (r : EndRec K) (l : EndLin K) : Prop where
  X : 1 ≤ r.X + r.Z
  Z : r.Z ≤ 0
  U : 1 ≤ r.U + r.W
  W : r.W ≤ 0
  theta_u : 1 < l.theta_u
  theta_d : 1 < l.theta_d
  sigma_u : l.sigma_u < 0
  sigma_d : l.sigma_d < 0

theorem endSigns {q : QCoef K} {e : EndCoef K} {n : ℕ} (S : Signs q e n) {X0 Z0 Un Wn : K}
    (hX : 0 < X0 ∧ 0 < Z0 ∧ X0 + Z0 < 1) (hU : 0 < Un ∧ 0 < Wn ∧ Un + Wn < 1) {r : EndRec K}
    (rX : r.X = safeDivide (-q.mu 0 * X0 - q.lam 0) (q.kappa 0))
    (rZ : r.Z = safeDivide (-q.mu 0 * Z0) (q.kappa 0))
    (rU : r.U = safeDivide (-q.kappa n * Un - q.lam n) (q.mu n))
    (rW : r.W = safeDivide (-q.kappa n * Wn) (q.mu n)) : EndSigns r (endLin e) := by
  have k0 := S.kappa 0 (by omega)
  have m0 := S.mu 0 (by omega)
  have n0 := S.nrow 0 (by omega)
  have kn := S.kappa n le_rfl
  have mn := S.mu n le_rfl
  have nn := S.nrow n le_rfl
  have hau := S.alpha_u
  have hcu := S.chi_u
  have hru := S.row_u
  have had := S.alpha_d
  have hcd := S.chi_d
  have hrd := S.row_d
  refine ⟨?_, ?_, ?_, ?_, ?_, ?_, ?_, ?_⟩
  · rw [rX, rZ, safeDivide_of_ne _ k0.ne, safeDivide_of_ne _ k0.ne, ← add_div, le_div_iff_of_neg k0]
    nlinarith
  · rw [rZ, safeDivide_of_ne _ k0.ne]
    exact div_nonpos_of_nonneg_of_nonpos (by nlinarith) k0.le
  · rw [rU, rW, safeDivide_of_ne _ mn.ne, safeDivide_of_ne _ mn.ne, ← add_div, le_div_iff_of_neg mn]
    nlinarith
  · rw [rW, safeDivide_of_ne _ mn.ne]
    exact div_nonpos_of_nonneg_of_nonpos (by nlinarith) mn.le
  · simp only [endLin]; rw [safeDivide_of_ne _ hcu.ne, lt_div_iff_of_neg hcu]; linarith
  · simp only [endLin]; rw [safeDivide_of_ne _ had.ne, lt_div_iff_of_neg had]; linarith
  · simp only [endLin]; rw [safeDivide_of_ne _ hcu.ne]; exact div_neg_of_pos_of_neg (by linarith) hcu
  · simp only [endLin]; rw [safeDivide_of_ne _ had.ne]; exact div_neg_of_pos_of_neg (by linarith) had

theorem dStar_pos {r : EndRec K} {l : EndLin K} (E : EndSigns r l) : 0 < dStar r l := by
  obtain ⟨hX, hZ, hU, hW, tu, td, -, -⟩ := E
  have a : -r.Z * l.theta_u < r.X * l.theta_u - 1 := by nlinarith
  have b : -r.W * l.theta_d < r.U * l.theta_d - 1 := by nlinarith
  have a0 : 0 ≤ -r.Z * l.theta_u := by nlinarith
  have b0 : 0 ≤ -r.W * l.theta_d := by nlinarith
  have := mul_lt_mul'' a b a0 b0
  unfold dStar
  nlinarith

/-- The upstream end stretch takes part of the upstream superjunction's concentration. -/
theorem rhoU_pos {r : EndRec K} {l : EndLin K} (E : EndSigns r l) : 0 < rhoU r l := by
  have hD := dStar_pos E
  obtain ⟨hX, hZ, hU, hW, tu, td, su, -⟩ := E
  rw [rhoU, safeDivide_of_ne _ hD.ne']
  refine div_pos ?_ hD
  have b : -r.W * l.theta_d < r.U * l.theta_d - 1 := by nlinarith
  have b0 : 0 ≤ -r.W * l.theta_d := by nlinarith
  have a0 : -r.Z < r.X := by linarith
  have := mul_lt_mul'' a0 b (by linarith) b0
  have e : (1 - r.U * l.theta_d) * r.X * l.sigma_u + r.Z * l.theta_d * r.W * l.sigma_u
      = (-l.sigma_u) * (r.X * (r.U * l.theta_d - 1) - -r.Z * (-r.W * l.theta_d)) := by ring
  rw [e]
  exact mul_pos (by linarith) (by linarith)

/-- The downstream end stretch takes part of the downstream superjunction's concentration. -/
theorem tauD_pos {r : EndRec K} {l : EndLin K} (E : EndSigns r l) : 0 < tauD r l := by
  have hD := dStar_pos E
  obtain ⟨hX, hZ, hU, hW, tu, td, -, sd⟩ := E
  rw [tauD, safeDivide_of_ne _ hD.ne']
  refine div_pos ?_ hD
  have b : -r.Z * l.theta_u < r.X * l.theta_u - 1 := by nlinarith
  have b0 : 0 ≤ -r.Z * l.theta_u := by nlinarith
  have a0 : -r.W < r.U := by linarith
  have := mul_lt_mul'' a0 b (by linarith) b0
  have e : r.W * l.theta_u * r.Z * l.sigma_d + (1 - r.X * l.theta_u) * r.U * l.sigma_d
      = (-l.sigma_d) * (r.U * (r.X * l.theta_u - 1) - -r.W * (-r.Z * l.theta_u)) := by ring
  rw [e]
  exact mul_pos (by linarith) (by linarith)

/-! ### The coefficients of a physical, water-balanced step have these signs -/

theorem alphaIk_neg {Q dx D A : K} (hdx : 0 < dx) (hD : 0 < D) (hA : 0 < A) :
    alphaIk Q (omegaGt Q) dx D A < 0 := by
  have : 0 < 2 * D * A / dx := by positivity
  have e : -2 * D * A / dx = -(2 * D * A / dx) := by ring
  unfold alphaIk omegaGt
  rw [e]
  split_ifs <;> linarith

theorem chiIk_neg {Q dx D A : K} (hdx : 0 < dx) (hD : 0 < D) (hA : 0 < A) :
    chiIk Q (omegaGt Q) dx D A < 0 := by
  have : 0 < 2 * D * A / dx := by positivity
  have e : -2 * D * A / dx = -(2 * D * A / dx) := by ring
  unfold chiIk omegaGt
  rw [e]
  split_ifs with h <;> linarith

theorem kappaIk_neg {Q dx D A : K} (hdx : 0 < dx) (hD : 0 < D) (hA : 0 < A) :
    kappaIk Q (omegaGt Q) D A dx < 0 := by
  have := alphaIk_neg (Q := Q) hdx hD hA
  simpa [alphaIk, kappaIk] using this

theorem muIk_neg {Q dx D A : K} (hdx : 0 < dx) (hD : 0 < D) (hA : 0 < A) :
    muIk Q (omegaGt Q) D A dx < 0 := by
  have := chiIk_neg (Q := Q) hdx hD hA
  simpa [chiIk, muIk] using this

theorem link_rowsum {dt D A A_prev dx Kr Q_up Q_dn : K}
    (hb : dx * (A - A_prev) / dt + Q_dn - Q_up = 0) :
    alphaIk Q_up (omegaGt Q_up) dx D A
      + betaIk dt D A A_prev dx Kr Q_up Q_dn (omegaGt Q_up) (omegaGt Q_dn)
      + chiIk Q_dn (omegaGt Q_dn) dx D A = dx * A / dt + Kr * (dx * A) := by
  unfold alphaIk betaIk chiIk
  linear_combination hb

theorem node_rowsum {A_S h h_prev Q_up Q_im1 dt Kr D D_im1 A A_im1 dx dx_im1 Q0 : K}
    (hb : A_S * (h - h_prev) / dt + Q_up - Q_im1 = Q0) :
    kappaIk Q_im1 (omegaGt Q_im1) D_im1 A_im1 dx_im1
      + lambdaIk A_S h h_prev Q_up Q_im1 (omegaGt Q_up) (omegaGt Q_im1) dt Kr D D_im1 A A_im1 dx dx_im1
      + muIk Q_up (omegaGt Q_up) D A dx = A_S * h / dt + Kr * (A_S * h) + Q0 := by
  unfold kappaIk lambdaIk muIk
  linear_combination hb

theorem step_signs {w : Wiring} {p : Params K} {y : Hydro K} {inp : Inputs K} {c : Conc K} (W : Wired w)
    (P : Physical w p y inp) (B : WaterBalance w y inp) {k : ℕ} (hk : k < w.ix.NK) :
    Signs ((stepCoef w p y inp c).slice (w.ix.i_1k k) (w.ix.I_1k k)) (endCoeffs p y c k) (w.ix.nk k) := by
  have S := W.nodes k hk
  have hn := W.layout.pos k hk
  have hdt := P.dt
  have lrow : ∀ {dx A Kr : K}, 0 < dx → 0 < A → 0 ≤ Kr → 0 < dx * A / y.dt + Kr * (dx * A) := by
    intro dx A Kr h1 h2 h3
    have : 0 ≤ Kr * (dx * A) := by positivity
    have : 0 < dx * A / y.dt := by positivity
    linarith
  -- junction coefficients, by position
  have node : ∀ j, j ≤ w.ix.nk k → (stepCoef w p y inp c).kappa (w.ix.I_1k k + j) < 0 ∧
      (stepCoef w p y inp c).mu (w.ix.I_1k k + j) < 0 ∧
      0 ≤ (stepCoef w p y inp c).kappa (w.ix.I_1k k + j) + (stepCoef w p y inp c).lam (w.ix.I_1k k + j)
        + (stepCoef w p y inp c).mu (w.ix.I_1k k + j) := by
    intro j hj
    have kk := S.kI j hj
    have hb := B.node k hk j hj
    have hpos : 0 ≤ y.A_S (w.ix.I_1k k + j) * y.h (w.ix.I_1k k + j) / y.dt
        + p.KrI (w.ix.I_1k k + j) * (y.A_S (w.ix.I_1k k + j) * y.h (w.ix.I_1k k + j))
        + inp.Q_0I (w.ix.I_1k k + j) := by
      have h1 := P.AS k hk j hj
      have h2 := P.KrI k hk j hj
      have h3 := P.Q0I k hk j hj
      have := div_nonneg h1 hdt.le
      have := mul_nonneg h2 h1
      linarith
    by_cases h0 : j = 0
    · have hs : w.nix.isStart (w.ix.I_1k k + j) = true := (S.start j hj).2 h0
      have hf := S.fwd j (by omega)
      have hn0 : ¬ j = w.ix.nk k := by omega
      simp only [nodeQout, nodeQin] at hb
      rw [if_neg hn0, if_pos h0] at hb
      simp only [stepCoef, coeffs, hs, if_true, hf, kk]
      refine ⟨kappaIk_neg (P.dxu k hk) (P.Du k hk) (P.Au k hk),
        muIk_neg (P.dx k hk j (by omega)) (P.D k hk j (by omega)) (P.A k hk j (by omega)), ?_⟩
      rw [node_rowsum hb]
      exact hpos
    · have hs : w.nix.isStart (w.ix.I_1k k + j) = false := by
        rw [Bool.eq_false_iff]; exact fun h => h0 ((S.start j hj).1 h)
      by_cases h1 : j = w.ix.nk k
      · have he : w.nix.isEnd (w.ix.I_1k k + j) = true := (S.fin j hj).2 h1
        have hbw : w.nix.bwd (w.ix.I_1k k + j) = w.ix.i_1k k + (j - 1) := by
          rw [h1, S.bwd]; omega
        simp only [nodeQout, nodeQin, h0, if_false] at hb
        rw [if_pos h1] at hb
        simp only [stepCoef, coeffs, hs, he, if_true, Bool.false_eq_true, if_false, hbw, kk]
        refine ⟨kappaIk_neg (P.dx k hk _ (by omega)) (P.D k hk _ (by omega)) (P.A k hk _ (by omega)),
          muIk_neg (P.dxd k hk) (P.Dd k hk) (P.Ad k hk), ?_⟩
        rw [node_rowsum hb]
        exact hpos
      · have he : w.nix.isEnd (w.ix.I_1k k + j) = false := by
          rw [Bool.eq_false_iff]; exact fun h => h1 ((S.fin j hj).1 h)
        have hf := S.fwd j (by omega)
        have e : w.ix.i_1k k + j - 1 = w.ix.i_1k k + (j - 1) := by omega
        simp only [nodeQout, nodeQin, h0, h1, if_false] at hb
        simp only [stepCoef, coeffs, hs, he, Bool.false_eq_true, if_false, hf, e]
        refine ⟨kappaIk_neg (P.dx k hk _ (by omega)) (P.D k hk _ (by omega)) (P.A k hk _ (by omega)),
          muIk_neg (P.dx k hk _ (by omega)) (P.D k hk _ (by omega)) (P.A k hk _ (by omega)), ?_⟩
        rw [node_rowsum hb]
        exact hpos
  refine ⟨fun j hj => ?_, fun j hj => ?_, fun j hj => ?_, fun j hj => (node j hj).1,
    fun j hj => (node j hj).2.1, fun j hj => (node j hj).2.2, ?_, ?_, ?_, ?_, ?_, ?_⟩
  · exact alphaIk_neg (P.dx k hk j hj) (P.D k hk j hj) (P.A k hk j hj)
  · exact chiIk_neg (P.dx k hk j hj) (P.D k hk j hj) (P.A k hk j hj)
  · refine lt_of_lt_of_eq (lrow (P.dx k hk j hj) (P.A k hk j hj) (P.Kr k hk j hj)) ?_
    exact (link_rowsum (B.link k hk j hj)).symm
  · exact alphaIk_neg (P.dxu k hk) (P.Du k hk) (P.Au k hk)
  · exact chiIk_neg (P.dxu k hk) (P.Du k hk) (P.Au k hk)
  · refine lt_of_lt_of_eq (lrow (P.dxu k hk) (P.Au k hk) le_rfl) ?_
    exact (link_rowsum (B.up k hk)).symm
  · exact alphaIk_neg (P.dxd k hk) (P.Dd k hk) (P.Ad k hk)
  · exact chiIk_neg (P.dxd k hk) (P.Dd k hk) (P.Ad k hk)
  · refine lt_of_lt_of_eq (lrow (P.dxd k hk) (P.Ad k hk) le_rfl) ?_
    exact (link_rowsum (B.dn k hk)).symm

end Pipedream.Quality
