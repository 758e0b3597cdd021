import Verif.QualityLemmas
import Mathlib.Tactic.LinearCombination
import Mathlib.Tactic.FieldSimp
import Mathlib.Tactic.Positivity
import Mathlib.Tactic.Linarith

/-! # Algebra of the water-quality elimination: soundness, existence, signs -/

set_option linter.unusedSectionVars false

namespace Pipedream.Quality

open Pipedream.Network Pipedream.Link Pipedream.Sweep

variable {K : Type*} [Field K] [LinearOrder K]

/-- Link equations and equations of the interior junctions of one superlink with `n` links (local
numbering; junction `j` lies between links `j-1` and `j`). -/
structure Interior (q : QCoef K) (n : ℕ) (cI ci : ℕ → K) : Prop where
  link : ∀ j, j < n → q.alpha j * cI j + q.beta j * ci j + q.chi j * cI (j + 1) = q.gamma j
  node : ∀ j, j + 1 < n → q.kappa (j+1) * ci j + q.lam (j+1) * cI (j+1) + q.mu (j+1) * ci (j+1) = q.eta (j+1)

/-- Equations of the two end junctions and the two end stretches. `cJu`, `cJd` are the superjunctions. -/
structure EndEqs (q : QCoef K) (e : EndCoef K) (n : ℕ) (cI ci : ℕ → K) (cu cd cJu cJd : K) : Prop where
  first : q.kappa 0 * cu + q.lam 0 * cI 0 + q.mu 0 * ci 0 = q.eta 0
  last : q.kappa n * ci (n-1) + q.lam n * cI n + q.mu n * cd = q.eta n
  up : e.alpha_u * cJu + e.beta_u * cu + e.chi_u * cI 0 = e.gamma_u
  dn : e.alpha_d * cI n + e.beta_d * cd + e.chi_d * cJd = e.gamma_d

/-- Non-zero pivots of the forward sweep. -/
structure FwdPiv (q : QCoef K) (n : ℕ) (T U : ℕ → K) : Prop where
  b0 : q.beta 0 ≠ 0
  T : ∀ j, j + 1 < n → T (j+1) ≠ 0
  den : ∀ j, j + 1 < n → q.lam (j+1) + q.kappa (j+1) * U j ≠ 0

/-- Non-zero pivots of the backward sweep. -/
structure BwdPiv (q : QCoef K) (n : ℕ) (O X : ℕ → K) : Prop where
  bn : q.beta (n-1) ≠ 0
  O : ∀ j, j + 1 < n → O j ≠ 0
  den : ∀ j, j + 1 < n → q.lam (j+1) + q.mu (j+1) * X (j+1) ≠ 0

theorem fwd_sound {q : QCoef K} {n : ℕ} {T U V W cI ci : ℕ → K} (R : FwdRel q n T U V W)
    (pv : FwdPiv q n T U) (S : Interior q n cI ci) :
    ∀ j, j < n → ci j = U j * cI (j+1) + V j + W j * cI 0 := by
  intro j
  induction j with
  | zero =>
    intro hj
    have l := S.link 0 hj
    have := pv.b0
    rw [R.U0, R.V0, R.W0, U_1k, V_1k, W_1k]
    simp only [safeDivide_eq]
    field_simp
    linear_combination l
  | succ j ih =>
    intro hj
    have ihj := ih (by omega)
    have l := S.link (j+1) hj
    have nd := S.node j hj
    have hT := pv.T j hj
    have hd := pv.den j hj
    have e : T (j+1) = q.beta (j+1) + -q.alpha (j+1) * q.mu (j+1) / (q.lam (j+1) + q.kappa (j+1) * U j) := by
      rw [R.Ts j hj, T_ik]; simp only [safeDivide_eq]
    have hh : (q.lam (j+1) + q.kappa (j+1) * U j) * cI (j+1)
        = q.eta (j+1) - q.mu (j+1) * ci (j+1) - q.kappa (j+1) * V j - q.kappa (j+1) * W j * cI 0 := by
      linear_combination nd - q.kappa (j+1) * ihj
    rw [R.Us j hj, R.Vs j hj, R.Ws j hj, U_Ik, V_Ik, W_Ik]
    simp only [safeDivide_eq]
    have hh' : cI (j+1) = (q.eta (j+1) - q.mu (j+1) * ci (j+1) - q.kappa (j+1) * V j
        - q.kappa (j+1) * W j * cI 0) / (q.lam (j+1) + q.kappa (j+1) * U j) := by
      rw [← hh]; field_simp
    have key : T (j+1) * ci (j+1) = -q.chi (j+1) * cI (j+1+1)
        + (q.gamma (j+1) + -q.alpha (j+1) * (q.eta (j+1) - q.kappa (j+1) * V j)
            / (q.lam (j+1) + q.kappa (j+1) * U j))
        + q.alpha (j+1) * q.kappa (j+1) * W j / (q.lam (j+1) + q.kappa (j+1) * U j) * cI 0 := by
      rw [e]
      rw [hh'] at l
      linear_combination l
    have e2 : ci (j+1) = (T (j+1) * ci (j+1)) / T (j+1) := by field_simp
    rw [e2, key]
    field_simp

theorem bwd_sound {q : QCoef K} {n : ℕ} {O X Y Z cI ci : ℕ → K} (R : BwdRel q n O X Y Z)
    (pv : BwdPiv q n O X) (S : Interior q n cI ci) :
    ∀ j, j < n → ci j = X j * cI j + Y j + Z j * cI n := by
  suffices H : ∀ m, ∀ j, j + m + 1 = n → ci j = X j * cI j + Y j + Z j * cI n by
    intro j hj; exact H (n - 1 - j) j (by omega)
  intro m
  induction m with
  | zero =>
    intro j hj
    obtain rfl : j = n - 1 := by omega
    have hjn : n - 1 < n := by omega
    have en : n - 1 + 1 = n := by omega
    have l := S.link _ hjn
    rw [en] at l
    have := pv.bn
    rw [R.Xn, R.Yn, R.Zn, U_1k, V_1k, W_1k]
    simp only [safeDivide_eq]
    field_simp
    linear_combination l
  | succ m ih =>
    intro j hj
    have hj1 : j + 1 < n := by omega
    have ihj := ih (j+1) (by omega)
    have l := S.link j (by omega)
    have nd := S.node j hj1
    have hO := pv.O j hj1
    have hd := pv.den j hj1
    have e : O j = q.beta j + -q.chi j * q.kappa (j+1) / (q.lam (j+1) + q.mu (j+1) * X (j+1)) := by
      rw [R.Os j (by omega) hj1, O_ik]; simp only [safeDivide_eq]
    have hh' : cI (j+1) = (q.eta (j+1) - q.kappa (j+1) * ci j - q.mu (j+1) * Y (j+1)
        - q.mu (j+1) * Z (j+1) * cI n) / (q.lam (j+1) + q.mu (j+1) * X (j+1)) := by
      rw [eq_div_iff hd]; linear_combination nd - q.mu (j+1) * ihj
    rw [R.Xs j (by omega) hj1, R.Ys j (by omega) hj1, R.Zs j (by omega) hj1, X_Ik, Y_Ik, Z_Ik]
    simp only [safeDivide_eq]
    have key : O j * ci j = -q.alpha j * cI j
        + (q.gamma j + -q.chi j * (q.eta (j+1) - q.mu (j+1) * Y (j+1))
            / (q.lam (j+1) + q.mu (j+1) * X (j+1)))
        + q.chi j * q.mu (j+1) * Z (j+1) / (q.lam (j+1) + q.mu (j+1) * X (j+1)) * cI n := by
      rw [e]
      rw [hh'] at l
      linear_combination l
    have e2 : ci j = (O j * ci j) / O j := by field_simp
    rw [e2, key]
    field_simp

/-- Back substitution from the last junction: junction values of the exact solution, from `n` downwards. -/
def backJ (q : QCoef K) (n : ℕ) (U V W : ℕ → K) (c1 cN : K) : ℕ → K
  | 0 => cN
  | m + 1 =>
    let j := n - (m + 1)
    let cj := U j * backJ q n U V W c1 cN m + V j + W j * c1
    if j = 0 then c1
    else (q.eta j - q.mu j * cj - q.kappa j * V (j-1) - q.kappa j * W (j-1) * c1)
      / (q.lam j + q.kappa j * U (j-1))

/-- For any two end concentrations the interior equations have a solution. -/
theorem interior_exists {q : QCoef K} {n : ℕ} {T U V W : ℕ → K} (hn : 1 ≤ n) (R : FwdRel q n T U V W)
    (pv : FwdPiv q n T U) (c1 cN : K) :
    ∃ cI ci, Interior q n cI ci ∧ cI 0 = c1 ∧ cI n = cN := by
  let cI : ℕ → K := fun j => backJ q n U V W c1 cN (n - j)
  let ci : ℕ → K := fun j => U j * cI (j+1) + V j + W j * c1
  have h0 : cI 0 = c1 := by
    obtain ⟨m, rfl⟩ : ∃ m, n = m + 1 := ⟨n - 1, by omega⟩
    simp [cI, backJ]
  have hN : cI n = cN := by simp [cI, backJ]
  have hJ : ∀ j, j + 1 < n → cI (j+1) = (q.eta (j+1) - q.mu (j+1) * ci (j+1) - q.kappa (j+1) * V j
      - q.kappa (j+1) * W j * c1) / (q.lam (j+1) + q.kappa (j+1) * U j) := by
    intro j hj
    obtain ⟨m, hm⟩ : ∃ m, n - (j+1) = m + 1 := ⟨n - (j+1) - 1, by omega⟩
    have e1 : n - (m + 1) = j + 1 := by omega
    have e2 : n - (j + 1 + 1) = m := by omega
    show backJ q n U V W c1 cN (n - (j+1)) = _
    rw [hm]
    simp only [backJ, e1, ci, cI, e2, Nat.add_sub_cancel]
    simp
  refine ⟨cI, ci, ⟨?_, ?_⟩, h0, hN⟩
  · intro j hj
    rcases j with _ | j
    · have hb := pv.b0
      simp only [ci, h0]
      rw [R.U0, R.V0, R.W0, U_1k, V_1k, W_1k]
      simp only [safeDivide_eq]
      field_simp
      ring
    · have hT := pv.T j hj
      have hd := pv.den j hj
      have e : T (j+1) = q.beta (j+1) + -q.alpha (j+1) * q.mu (j+1) / (q.lam (j+1) + q.kappa (j+1) * U j) := by
        rw [R.Ts j hj, T_ik]; simp only [safeDivide_eq]
      have key : T (j+1) * ci (j+1) = -q.chi (j+1) * cI (j+1+1)
          + (q.gamma (j+1) + -q.alpha (j+1) * (q.eta (j+1) - q.kappa (j+1) * V j)
              / (q.lam (j+1) + q.kappa (j+1) * U j))
          + q.alpha (j+1) * q.kappa (j+1) * W j / (q.lam (j+1) + q.kappa (j+1) * U j) * c1 := by
        simp only [ci]
        rw [R.Us j hj, R.Vs j hj, R.Ws j hj, U_Ik, V_Ik, W_Ik]
        simp only [safeDivide_eq]
        field_simp
      have hJj := hJ j hj
      rw [e] at key
      rw [hJj]
      linear_combination key
  · intro j hj
    have hd := pv.den j hj
    have := hJ j hj
    rw [eq_div_iff hd] at this
    have e : ci j = U j * cI (j+1) + V j + W j * c1 := rfl
    rw [e]
    linear_combination this

/-- A solution of the interior equations that respects the limits is what the internal solve returns. -/
theorem internals_eq_solution {q : QCoef K} {n : ℕ} {T U V W O X Y Z : ℕ → K} (hn : 1 ≤ n)
    (F : FwdRel q n T U V W) (B : BwdRel q n O X Y Z) (fp : FwdPiv q n T U) (bp : BwdPiv q n O X)
    (xp : ∀ j, 1 ≤ j → j < n → X j ≠ 0) {lo : K} {hi : Option K} {back : Bool} {cI ci eI ei : ℕ → K}
    (R : IntRel U V W X Y Z lo hi (eI 0) (eI n) n back cI ci) (S : Interior q n eI ei)
    (hI : ∀ j, 1 ≤ j → j < n → limit lo hi (eI j) = eI j)
    (hi' : ∀ j, 1 ≤ j → j < n → limit lo hi (ei j) = ei j) :
    (∀ j, j ≤ n → cI j = eI j) ∧ (∀ j, j < n → ci j = ei j) := by
  have fs := fwd_sound F fp S
  have bs := bwd_sound B bp S
  have hJ : ∀ m, ∀ j, j + m = n → cI j = eI j := by
    intro m
    induction m with
    | zero => intro j hj; obtain rfl : j = n := by omega
              exact R.last
    | succ m ih =>
      intro j hj
      rcases Nat.eq_zero_or_pos j with h0 | h1
      · subst h0; exact R.first
      · have hjn : j < n := by omega
        have e : c_i_f (cI (j+1)) (eI 0) (U j) (V j) (W j) = ei j := by
          rw [ih (j+1) (by omega), c_i_f, fs j hjn]
        rw [R.nodes j h1 h1 hjn, e, c_I_b, safeDivide_of_ne _ (xp j h1 hjn)]
        have : (ei j - Y j - Z j * eI n) / X j = eI j := by
          rw [div_eq_iff (xp j h1 hjn)]; rw [bs j hjn]; ring
        rw [this]; exact hI j h1 hjn
  have hJ' : ∀ j, j ≤ n → cI j = eI j := fun j hj => hJ (n - j) j (by omega)
  refine ⟨hJ', fun j hj => ?_⟩
  rcases Nat.eq_zero_or_pos j with h0 | h1
  · subst h0
    rw [R.link0]
    cases back
    · simp only [Bool.false_eq_true, if_false]
      rw [hJ' 1 (by omega), c_i_f, fs 0 hj]
    · simp only [if_true]
      rw [c_i_b, bs 0 hj]
  · rw [R.links j h1 h1 hj, hJ' (j+1) (by omega), c_i_f, ← fs j hj]
    exact hi' j h1 hj

/-- Elimination of the ends: with non-zero divisors, the end values computed from the superjunction
concentrations satisfy the equations of the end stretches and the end relations. -/
theorem ends_sound {r : EndRec K} {e : EndCoef K} (hchi : e.chi_u ≠ 0) (halpha : e.alpha_d ≠ 0)
    (hD : dStar r (endLin e) ≠ 0) (cJu cJd : K) :
    let l := endLin e
    let cu := rhoU r l * cJu + tauU r l * cJd + zetaU r l
    let cd := rhoD r l * cJu + tauD r l * cJd + zetaD r l
    let c1 := l.theta_u * cu + l.sigma_u * cJu + l.xi_u
    let cN := l.theta_d * cd + l.sigma_d * cJd + l.xi_d
    e.alpha_u * cJu + e.beta_u * cu + e.chi_u * c1 = e.gamma_u ∧
    e.alpha_d * cN + e.beta_d * cd + e.chi_d * cJd = e.gamma_d ∧
    cu = r.X * c1 + r.Y + r.Z * cN ∧ cd = r.U * cN + r.V + r.W * c1 := by
  intro l cu cd c1 cN
  refine ⟨?_, ?_, ?_, ?_⟩
  · simp only [c1, l, endLin, safeDivide_of_ne _ hchi]
    field_simp
    ring
  · simp only [cN, l, endLin, safeDivide_of_ne _ halpha]
    field_simp
    ring
  · simp only [c1, cN, cu, cd, rhoU, tauU, zetaU, rhoD, tauD, zetaD]
    rw [show dStar r l = dStar r (endLin e) from rfl]
    simp only [safeDivide_of_ne _ hD]
    field_simp
    simp only [dStar, l]
    ring
  · simp only [c1, cN, cu, cd, rhoU, tauU, zetaU, rhoD, tauD, zetaD]
    rw [show dStar r l = dStar r (endLin e) from rfl]
    simp only [safeDivide_of_ne _ hD]
    field_simp
    simp only [dStar, l]
    ring

/-- Conversely, whatever satisfies those four relations has the computed end values. -/
theorem ends_unique {r : EndRec K} {e : EndCoef K} (hchi : e.chi_u ≠ 0) (halpha : e.alpha_d ≠ 0)
    (hD : dStar r (endLin e) ≠ 0) {cJu cJd cu cd c1 cN : K}
    (h1 : e.alpha_u * cJu + e.beta_u * cu + e.chi_u * c1 = e.gamma_u)
    (h2 : e.alpha_d * cN + e.beta_d * cd + e.chi_d * cJd = e.gamma_d)
    (h3 : cu = r.X * c1 + r.Y + r.Z * cN) (h4 : cd = r.U * cN + r.V + r.W * c1) :
    let l := endLin e
    cu = rhoU r l * cJu + tauU r l * cJd + zetaU r l ∧
    cd = rhoD r l * cJu + tauD r l * cJd + zetaD r l ∧
    c1 = l.theta_u * cu + l.sigma_u * cJu + l.xi_u ∧
    cN = l.theta_d * cd + l.sigma_d * cJd + l.xi_d := by
  intro l
  have e1 : c1 = l.theta_u * cu + l.sigma_u * cJu + l.xi_u := by
    simp only [l, endLin, safeDivide_of_ne _ hchi]
    field_simp
    linear_combination h1
  have e2 : cN = l.theta_d * cd + l.sigma_d * cJd + l.xi_d := by
    simp only [l, endLin, safeDivide_of_ne _ halpha]
    field_simp
    linear_combination h2
  have h3' : (1 - r.X * l.theta_u) * cu - r.Z * l.theta_d * cd
      = r.X * l.sigma_u * cJu + r.Z * l.sigma_d * cJd + (r.Y + r.X * l.xi_u + r.Z * l.xi_d) := by
    rw [e1, e2] at h3; linear_combination h3
  have h4' : (1 - r.U * l.theta_d) * cd - r.W * l.theta_u * cu
      = r.W * l.sigma_u * cJu + r.U * l.sigma_d * cJd + (r.V + r.U * l.xi_d + r.W * l.xi_u) := by
    rw [e1, e2] at h4; linear_combination h4
  refine ⟨?_, ?_, e1, e2⟩
  · simp only [rhoU, tauU, zetaU]
    rw [show dStar r l = dStar r (endLin e) from rfl]
    simp only [safeDivide_of_ne _ hD]
    field_simp
    simp only [dStar]
    linear_combination (1 - r.U * l.theta_d) * h3' + r.Z * l.theta_d * h4'
  · simp only [rhoD, tauD, zetaD]
    rw [show dStar r l = dStar r (endLin e) from rfl]
    simp only [safeDivide_of_ne _ hD]
    field_simp
    simp only [dStar]
    linear_combination (1 - r.X * l.theta_u) * h4' + r.W * l.theta_u * h3'

end Pipedream.Quality
