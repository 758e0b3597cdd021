import Verif.StabilityProps
import Verif.SteadyProps

/-!
# C148: a step does not create flow from nothing

The equations of a superlink obey a maximum principle: if the depths the step starts from fit the heads at
the ends, no link carries more after the step than the largest of: what it carried before plus the impulse
gravity and the water surface slope of the state before give it during the step.
-/

namespace Pipedream.Step

open Pipedream.Sweep Pipedream.Link Pipedream.Superlink Pipedream.Control Pipedream.Network

/-! ### The maximum principle -/

section
variable {K : Type*} [Field K] [LinearOrder K] [IsStrictOrderedRing K]

/-- Upper half. `d` are the depths before the step, `Gu`, `Gd` the end flows before it; the new end depths
differ from them by the loss terms `ku (Qu - Gu)`, `kd (Qd - Gd)` and by `eu`, `ed`. -/
theorem max_principle_upper {g : K} {co : Coef K} {n : ℕ} {Q h d : ℕ → K} {Qu Qd Gu Gd ku kd eu ed du dd B : K}
    (hn : 1 ≤ n) (ph : Physical g co n) (S : SaintVenant g co n Q h Qu Qd)
    (hD : ∀ j, j ≤ n → co.D j = co.E j * d j) (hE : ∀ j, 1 ≤ j → j < n → 0 < co.E j)
    (hku : ku ≤ 0) (hkd : 0 ≤ kd) (hu : h 0 - d 0 = ku * (Qu - Gu) + eu)
    (hd : h n - d n = kd * (Qd - Gd) + ed) (du0 : 0 ≤ du) (dd0 : 0 ≤ dd) (heu : eu ≤ du) (hed : -ed ≤ dd)
    (hGu : Gu ≤ B) (hGd : Gd ≤ B)
    (hB : ∀ j, j < n → co.P j + g * co.A j * (d j - d (j + 1))
        + (if j = 0 then (g * co.A j - co.a j * co.E 0) * du else 0)
        + (if j + 1 = n then (g * co.A j - co.c j * co.E n) * dd else 0)
      ≤ (co.a j + co.b j + co.c j) * B) :
    (∀ j, j < n → Q j ≤ B) ∧ Qu ≤ B + co.E 0 * du ∧ Qd ≤ B + co.E n * dd := by
  have g0 := ph.g_pos
  have E0 := ph.E_nonneg 0 (by omega)
  have En := ph.E_nonneg n le_rfl
  have c0 := S.continuity 0 (by omega)
  rw [qIn_zero, qOut_lt _ _ (by omega), hD 0 (by omega)] at c0
  have cn := S.continuity n le_rfl
  have qn : qIn Q Qu n = Q (n - 1) := by rw [qIn, if_neg (by omega)]
  rw [qOut_end, qn, hD n le_rfl] at cn
  -- the ends exceed a bound of the links by no more than the disturbance
  have endU : ∀ X, B ≤ X → Q 0 ≤ X → Qu ≤ X + co.E 0 * du := by
    intro X hX hq
    by_contra hc
    push Not at hc
    have h1 : 0 ≤ co.E 0 * du := mul_nonneg E0 du0
    have h2 : ku * (Qu - Gu) ≤ 0 := mul_nonpos_of_nonpos_of_nonneg hku (by linarith)
    have h3 : co.E 0 * (h 0 - d 0) ≤ co.E 0 * du := mul_le_mul_of_nonneg_left (by linarith) E0
    linarith
  have endD : ∀ X, B ≤ X → Q (n - 1) ≤ X → Qd ≤ X + co.E n * dd := by
    intro X hX hq
    by_contra hc
    push Not at hc
    have h1 : 0 ≤ co.E n * dd := mul_nonneg En dd0
    have h2 : 0 ≤ kd * (Qd - Gd) := mul_nonneg hkd (by linarith)
    have h3 : co.E n * (-(h n - d n)) ≤ co.E n * dd := mul_le_mul_of_nonneg_left (by linarith) En
    linarith
  have links : ∀ j, j < n → Q j ≤ B := by
    obtain ⟨i, hi, him⟩ := Finset.exists_max_image (Finset.range n) Q ⟨0, by simp; omega⟩
    have hi := Finset.mem_range.mp hi
    have him : ∀ j, j < n → Q j ≤ Q i := fun j hj => him j (Finset.mem_range.mpr hj)
    suffices hs : Q i ≤ B from fun j hj => (him j hj).trans hs
    by_contra hc
    push Not at hc
    have Ai := ph.A_pos i hi
    have gA : 0 < g * co.A i := mul_pos g0 Ai
    -- upstream neighbour
    have up : qIn Q Qu i ≤ Q i + (if i = 0 then co.E 0 * du else 0) ∧
        h i ≤ d i + (if i = 0 then du else 0) := by
      rcases Nat.eq_zero_or_pos i with e | e
      · subst e
        rw [qIn_zero, if_pos rfl, if_pos rfl]
        refine ⟨endU _ hc.le le_rfl, ?_⟩
        rcases le_or_gt Gu Qu with hq | hq
        · have : ku * (Qu - Gu) ≤ 0 := mul_nonpos_of_nonpos_of_nonneg hku (by linarith)
          linarith
        · have h4 : co.E 0 * (h 0 - d 0) < 0 := by linarith
          have h5 : h 0 - d 0 < 0 := by
            by_contra h6
            push Not at h6
            have := mul_nonneg E0 h6
            linarith
          linarith
      · obtain ⟨j, rfl⟩ : ∃ j, i = j + 1 := ⟨i - 1, by omega⟩
        rw [qIn_succ, if_neg (by omega), if_neg (by omega), add_zero, add_zero]
        have q := him j (by omega)
        refine ⟨q, ?_⟩
        have cc := S.continuity (j + 1) (by omega)
        rw [qIn_succ, qOut_lt _ _ hi, hD (j + 1) (by omega)] at cc
        have h4 : co.E (j + 1) * (h (j + 1) - d (j + 1)) ≤ 0 := by linarith
        have := nonpos_of_mul_nonpos_right h4 (hE (j + 1) (by omega) hi)
        linarith
    -- downstream neighbour
    have down : qOut n Q Qd (i + 1) ≤ Q i + (if i + 1 = n then co.E n * dd else 0) ∧
        d (i + 1) - (if i + 1 = n then dd else 0) ≤ h (i + 1) := by
      by_cases e : i + 1 = n
      · rw [if_pos e, if_pos e, e, qOut_end]
        have en : n - 1 = i := by omega
        rw [en] at cn endD
        refine ⟨endD _ hc.le le_rfl, ?_⟩
        rcases le_or_gt Gd Qd with hq | hq
        · have : 0 ≤ kd * (Qd - Gd) := mul_nonneg hkd (by linarith)
          linarith
        · have h4 : 0 < co.E n * (h n - d n) := by linarith
          have h5 : 0 < h n - d n := by
            by_contra h6
            push Not at h6
            have := mul_nonpos_of_nonneg_of_nonpos En h6
            linarith
          linarith
      · rw [if_neg e, if_neg e, add_zero, sub_zero, qOut_lt _ _ (by omega)]
        have q := him (i + 1) (by omega)
        refine ⟨q, ?_⟩
        have cc := S.continuity (i + 1) (by omega)
        rw [qIn_succ, qOut_lt _ _ (by omega), hD (i + 1) (by omega)] at cc
        have h4 : 0 ≤ co.E (i + 1) * (h (i + 1) - d (i + 1)) := by linarith
        have := nonneg_of_mul_nonneg_right h4 (hE (i + 1) (by omega) (by omega))
        linarith
    have mo := S.momentum i hi
    have h1 := mul_le_mul_of_nonpos_left up.1 (ph.a_nonpos i hi)
    have h2 := mul_le_mul_of_nonpos_left down.1 (ph.c_nonpos i hi)
    have h3 := mul_le_mul_of_nonneg_left up.2 gA.le
    have h4 := mul_le_mul_of_nonneg_left down.2 gA.le
    have h5 := mul_lt_mul_of_pos_left hc (ph.abc_pos i hi)
    have h6 := hB i hi
    clear up down endU endD him c0 cn
    split_ifs at h1 h2 h3 h4 h6 <;> linarith
  exact ⟨links, endU B le_rfl (links 0 (by omega)), endD B le_rfl (links _ (by omega))⟩

/-- Maximum principle for the absolute values. -/
theorem max_principle {g : K} {co : Coef K} {n : ℕ} {Q h d : ℕ → K} {Qu Qd Gu Gd ku kd eu ed du dd B : K}
    (hn : 1 ≤ n) (ph : Physical g co n) (S : SaintVenant g co n Q h Qu Qd)
    (hD : ∀ j, j ≤ n → co.D j = co.E j * d j) (hE : ∀ j, 1 ≤ j → j < n → 0 < co.E j)
    (hku : ku ≤ 0) (hkd : 0 ≤ kd) (hu : h 0 - d 0 = ku * (Qu - Gu) + eu)
    (hd : h n - d n = kd * (Qd - Gd) + ed) (heu : |eu| ≤ du) (hed : |ed| ≤ dd)
    (hGu : |Gu| ≤ B) (hGd : |Gd| ≤ B)
    (hB : ∀ j, j < n → |co.P j + g * co.A j * (d j - d (j + 1))|
        + (if j = 0 then (g * co.A j - co.a j * co.E 0) * du else 0)
        + (if j + 1 = n then (g * co.A j - co.c j * co.E n) * dd else 0)
      ≤ (co.a j + co.b j + co.c j) * B) :
    (∀ j, j < n → |Q j| ≤ B) ∧ |Qu| ≤ B + co.E 0 * du ∧ |Qd| ≤ B + co.E n * dd := by
  have du0 := (abs_nonneg _).trans heu
  have dd0 := (abs_nonneg _).trans hed
  obtain ⟨u1, u2, u3⟩ := max_principle_upper hn ph S hD hE hku hkd hu hd du0 dd0 (le_of_abs_le heu)
    (neg_le_of_abs_le hed |> fun h => by linarith) (le_of_abs_le hGu) (le_of_abs_le hGd)
    (fun j hj => le_trans (by have := le_abs_self (co.P j + g * co.A j * (d j - d (j + 1))); linarith) (hB j hj))
  -- the negated state solves the equations with negated data
  let co' : Coef K := { co with P := fun j => -co.P j, D := fun j => -co.D j }
  have ph' : Physical g co' n := ⟨ph.g_pos, ph.A_pos, ph.a_nonpos, ph.c_nonpos, ph.abc_pos, ph.E_nonneg⟩
  have S' : SaintVenant g co' n (fun j => -Q j) (fun j => -h j) (-Qu) (-Qd) := by
    have qi : ∀ j, qIn (fun j => -Q j) (-Qu) j = -qIn Q Qu j := by intro j; unfold qIn; split_ifs <;> rfl
    have qo : ∀ j, qOut n (fun j => -Q j) (-Qd) j = -qOut n Q Qd j := by intro j; unfold qOut; split_ifs <;> rfl
    refine ⟨fun i hi => ?_, fun I hI => ?_⟩
    · have := S.momentum i hi
      rw [qi, qo]
      show co.a i * _ + co.b i * _ + co.c i * _ = -co.P i + g * co.A i * _
      linear_combination -this
    · have := S.continuity I hI
      rw [qi, qo]
      show _ - _ + co.E I * _ = -co.D I
      linear_combination -this
  obtain ⟨v1, v2, v3⟩ := max_principle_upper (d := fun j => -d j) (Gu := -Gu) (Gd := -Gd) (eu := -eu) (ed := -ed)
    (du := du) (dd := dd) (B := B) (ku := ku) (kd := kd) hn ph' S'
    (fun j hj => by show -co.D j = co.E j * -d j; rw [hD j hj]; ring) hE hku hkd
    (by linear_combination -hu) (by linear_combination -hd) du0 dd0
    (by have := neg_le_of_abs_le heu; linarith) (by have := le_of_abs_le hed; linarith)
    (by have := neg_le_of_abs_le hGu; linarith) (by have := neg_le_of_abs_le hGd; linarith)
    (fun j hj => le_trans (by
      have := neg_le_abs (co.P j + g * co.A j * (d j - d (j + 1)))
      show -co.P j + g * co.A j * (-d j - -d (j + 1)) + (if j = 0 then (g * co.A j - co.a j * co.E 0) * du else 0)
        + (if j + 1 = n then (g * co.A j - co.c j * co.E n) * dd else 0) ≤ _
      linarith) (hB j hj))
  refine ⟨fun j hj => abs_le.mpr ⟨?_, u1 j hj⟩, abs_le.mpr ⟨?_, u2⟩, abs_le.mpr ⟨?_, u3⟩⟩
  · have : -Q j ≤ B := v1 j hj
    linarith
  · have : -Qu ≤ B + co.E 0 * du := v2; linarith
  · have : -Qd ≤ B + co.E n * dd := v3; linarith

end

variable {m : Model} {geo : Geo} {inp : Inputs} {wk : Work} {s : Hyd} {co : Coef ℝ} {x : ℕ → ℝ}

/-! ### Specification -/

/-- The end depths of superlink `k` fit the heads of its superjunctions: they are the head above the end
invert (0 where the head is below it), lowered by the entrance loss and raised by the exit loss. -/
structure FitsEnds (m : Model) (geo : Geo) (s : Hyd) (k : ℕ) : Prop where
  up : s.h (m.ix.I_1k k) = (if m.z_uk k ≤ s.H (m.Ju k) then s.H (m.Ju k) - m.z_uk k else 0)
    - |s.Qu k| * m.C_uk k / (2 * m.g * geo.A_u k ^ 2) * s.Qu k
  down : s.h (m.ix.I_1k k + m.ix.nk k) = (if m.z_dk k ≤ s.H (m.Jd k) then s.H (m.Jd k) - m.z_dk k else 0)
    + |s.Qd k| * m.C_dk k / (2 * m.g * geo.A_d k ^ 2) * s.Qd k

/-- What link `j` of superlink `k` carried before the step plus what gravity and the water surface slope
before the step give it during the step, when the heads at the ends move by at most `du`, `dd`. -/
noncomputable def push (m : Model) (geo : Geo) (inp : Inputs) (s : Hyd) (k : ℕ) (du dd : ℝ) (j : ℕ) : ℝ :=
  |s.Q (m.ix.i_1k k + j)|
  + inp.dt / (geo.sigma (m.ix.i_1k k + j) * m.dx (m.ix.i_1k k + j))
    * (m.g * geo.A (m.ix.i_1k k + j) * |m.S_o (m.ix.i_1k k + j) * m.dx (m.ix.i_1k k + j)
          + s.h (m.ix.I_1k k + j) - s.h (m.ix.I_1k k + j + 1)|
      + (if j = 0 then (m.g * geo.A (m.ix.i_1k k + j)
          + geo.sigma (m.ix.i_1k k + j) * max (velocityUp m geo s k j) 0 * (surfaceArea m geo k 0 / inp.dt)) * du else 0)
      + (if j + 1 = m.ix.nk k then (m.g * geo.A (m.ix.i_1k k + j)
          + geo.sigma (m.ix.i_1k k + j) * max (-velocityDown m geo s k j) 0
            * (surfaceArea m geo k (m.ix.nk k) / inp.dt)) * dd else 0))

/-- `B` bounds the end flows before the step and what every link of superlink `k` is given. -/
structure Bounded (m : Model) (geo : Geo) (inp : Inputs) (s : Hyd) (k : ℕ) (du dd B : ℝ) : Prop where
  up : |s.Qu k| ≤ B
  down : |s.Qd k| ≤ B
  links : ∀ j, j < m.ix.nk k → push m geo inp s k du dd j ≤ B

/-! ### Lemmas -/

/-- Any solution of the equations of superlink `k` whose end depths belong to heads `Hu`, `Hd` is bounded. -/
theorem solution_bounded (c : m.Consistent) (st : StartTables m) (ps : PhysicalStep m geo inp)
    (hc : StepCoefs m.g m.N (m.linkIn geo inp s s) (m.nodeIn geo inp s) m.nix co) {k : ℕ} (hk : k < m.ix.NK)
    (hu : 0 < geo.A_u k) (hd : 0 < geo.A_d k) (ft : FitsEnds m geo s k)
    (lat : ∀ j, j ≤ m.ix.nk k → inp.Q_0Ik (m.ix.I_1k k + j) = 0)
    (wide : ∀ j, 1 ≤ j → j < m.ix.nk k → 0 < surfaceArea m geo k j)
    {du dd B Hu Hd Qu Qd : ℝ} {Q h : ℕ → ℝ} (bd : Bounded m geo inp s k du dd B)
    (hHu : |Hu - s.H (m.Ju k)| ≤ du) (hHd : |Hd - s.H (m.Jd k)| ≤ dd)
    (S : SaintVenant m.g (co.slice (m.ix.i_1k k) (m.ix.I_1k k)) (m.ix.nk k) Q h Qu Qd)
    (e0 : h 0 = (m.headCoef geo s k).kappa_u * Qu + (m.headCoef geo s k).lam_u * Hu + (m.headCoef geo s k).mu_u)
    (en : h (m.ix.nk k)
      = (m.headCoef geo s k).kappa_d * Qd + (m.headCoef geo s k).lam_d * Hd + (m.headCoef geo s k).mu_d) :
    (∀ j, j < m.ix.nk k → |Q j| ≤ B) ∧ |Qu| ≤ B + surfaceArea m geo k 0 / inp.dt * du ∧
      |Qd| ≤ B + surfaceArea m geo k (m.ix.nk k) / inp.dt * dd := by
  have g0 := ps.g_pos
  have dt0 := ps.dt_pos
  have ph := physical c ps hc hk
  have hs := step_headSigns (cur := s) ps hk
  have hN := c.inN k hk
  have e1 : (2 * geo.A_u k ^ 2 * m.g) ≠ 0 := by positivity
  have e2 : (2 * geo.A_d k ^ 2 * m.g) ≠ 0 := by positivity
  have nd : ∀ j, j ≤ m.ix.nk k →
      (co.slice (m.ix.i_1k k) (m.ix.I_1k k)).E j = surfaceArea m geo k j / inp.dt ∧
      (co.slice (m.ix.i_1k k) (m.ix.I_1k k)).D j
        = (co.slice (m.ix.i_1k k) (m.ix.I_1k k)).E j * s.h (m.ix.I_1k k + j) := by
    intro j hj
    obtain ⟨eE, eD⟩ := node_coeffs_eq (y := m.nodeIn geo inp s) (c.layout.pos k hk) (c.nodes k hk) hj
    simp only [Coef.slice]
    rw [hc.2.1, hc.2.2, eE, eD, surfaceArea_eq]
    refine ⟨rfl, ?_⟩
    show inp.Q_0Ik _ + _ = _
    rw [lat j hj, zero_add]; rfl
  have du0 := (abs_nonneg _).trans hHu
  have dd0 := (abs_nonneg _).trans hHd
  have th : ∀ H z t : ℝ, |theta H z * t| ≤ |t| := by
    intro H z t; unfold theta; split_ifs <;> simp
  have key := max_principle (d := fun j => s.h (m.ix.I_1k k + j)) (Gu := s.Qu k) (Gd := s.Qd k)
    (ku := (m.headCoef geo s k).kappa_u) (kd := (m.headCoef geo s k).kappa_d)
    (eu := theta (s.H (m.Ju k)) (m.z_uk k) * (Hu - s.H (m.Ju k)))
    (ed := theta (s.H (m.Jd k)) (m.z_dk k) * (Hd - s.H (m.Jd k))) (du := du) (dd := dd) (B := B)
    (c.layout.pos k hk) ph S (fun j hj => (nd j hj).2)
    (fun j h1 h2 => by rw [(nd j h2.le).1]; exact div_pos (wide j h1 h2) dt0) hs.ku hs.kd
    (by
      show h 0 - s.h (m.ix.I_1k k + 0) = _
      rw [e0, add_zero, ft.up]
      simp only [Model.headCoef, headCoefZ, gammaUk, safeDivide_of_ne _ e1, theta, ge_iff_le]
      split_ifs <;> ring)
    (by
      show h (m.ix.nk k) - s.h (m.ix.I_1k k + m.ix.nk k) = _
      rw [en, ft.down]
      simp only [Model.headCoef, headCoefZ, gammaDk, safeDivide_of_ne _ e2, theta, ge_iff_le]
      split_ifs <;> ring)
    ((th _ _ _).trans hHu) ((th _ _ _).trans hHd) bd.up bd.down
    (by
      intro j hj
      have hb := bd.links j hj
      have sp := ps.sigma_pos (m.ix.i_1k k + j) (by omega)
      have dp := ps.dx_pos (m.ix.i_1k k + j) (by omega)
      have Ap := ps.A_pos (m.ix.i_1k k + j) (by omega)
      have B0 : 0 ≤ B := (abs_nonneg _).trans bd.up
      rw [(nd 0 (by omega)).1, (nd (m.ix.nk k) le_rfl).1]
      obtain ⟨ha, hbb, hcc, hP, hA⟩ := hc.1 (m.ix.i_1k k + j) (by omega)
      simp only [Coef.slice]
      simp only [LinkIn.b, bIk] at hbb
      cases hf : frictionSlope ((m.linkIn geo inp s s).Qnext (m.ix.i_1k k + j))
          ((m.linkIn geo inp s s).dx (m.ix.i_1k k + j)) ((m.linkIn geo inp s s).A (m.ix.i_1k k + j))
          ((m.linkIn geo inp s s).R (m.ix.i_1k k + j)) ((m.linkIn geo inp s s).n (m.ix.i_1k k + j))
          ((m.linkIn geo inp s s).method (m.ix.i_1k k + j)) m.g with
      | error e => rw [hf] at hbb; simp [bind, Except.bind] at hbb
      | ok t =>
        have ht := C17_friction_nonneg dp.le (ps.R_pos _ (by omega)) (ps.n_pos _ (by omega)) g0 hf
        rw [hf] at hbb
        simp only [bind, Except.bind, pure, Except.pure] at hbb
        injection hbb with hbb
        have lo : m.dx (m.ix.i_1k k + j) / inp.dt * geo.sigma (m.ix.i_1k k + j)
            ≤ co.a (m.ix.i_1k k + j) + co.b (m.ix.i_1k k + j) + co.c (m.ix.i_1k k + j) := by
          rw [← hbb, ha, hcc]
          have : 0 ≤ (if (m.linkIn geo inp s s).ctrl (m.ix.i_1k k + j) = true then
              (m.linkIn geo inp s s).C (m.ix.i_1k k + j) * (m.linkIn geo inp s s).A (m.ix.i_1k k + j)
                * |(m.linkIn geo inp s s).Qnext (m.ix.i_1k k + j)| / (m.linkIn geo inp s s).A_c (m.ix.i_1k k + j) ^ 2
              else 0) := by
            have h1 := ps.C_nonneg (m.ix.i_1k k + j) (by omega)
            split_ifs
            · exact div_nonneg (mul_nonneg (mul_nonneg h1 Ap.le) (abs_nonneg _)) (sq_nonneg _)
            · exact le_rfl
          have e : (m.linkIn geo inp s s).dx (m.ix.i_1k k + j) / (m.linkIn geo inp s s).dt
              * (m.linkIn geo inp s s).sigma (m.ix.i_1k k + j)
              = m.dx (m.ix.i_1k k + j) / inp.dt * geo.sigma (m.ix.i_1k k + j) := rfl
          linarith
        refine le_trans ?_ (mul_le_mul_of_nonneg_right lo B0)
        refine le_trans ?_ (mul_le_mul_of_nonneg_left hb (by positivity))
        rw [ha, hcc, hP, hA]
        simp only [LinkIn.a, LinkIn.c, LinkIn.P, Model.linkIn, aIk, cIk, PIk]
        rw [velocityUp_eq c ps st hk hj, velocityDown_eq c ps st hk hj]
        have tri := abs_add_le (s.Q (m.ix.i_1k k + j) * m.dx (m.ix.i_1k k + j) / inp.dt * geo.sigma (m.ix.i_1k k + j))
          (m.g * geo.A (m.ix.i_1k k + j) * (m.S_o (m.ix.i_1k k + j) * m.dx (m.ix.i_1k k + j)
            + s.h (m.ix.I_1k k + j) - s.h (m.ix.I_1k k + j + 1)))
        rw [abs_mul, abs_div, abs_mul, abs_of_pos dp, abs_of_pos dt0, abs_of_pos sp, abs_mul,
          abs_of_pos (mul_pos g0 Ap)] at tri
        unfold push
        have e : m.dx (m.ix.i_1k k + j) / inp.dt * geo.sigma (m.ix.i_1k k + j) * (inp.dt /
            (geo.sigma (m.ix.i_1k k + j) * m.dx (m.ix.i_1k k + j))) = 1 := by field_simp
        rw [mul_add, ← mul_assoc (m.dx (m.ix.i_1k k + j) / inp.dt * geo.sigma (m.ix.i_1k k + j)) (inp.dt / _), e, one_mul]
        have e' : s.Q (m.ix.i_1k k + j) * m.dx (m.ix.i_1k k + j) / inp.dt * geo.sigma (m.ix.i_1k k + j)
            + m.g * geo.A (m.ix.i_1k k + j) * m.S_o (m.ix.i_1k k + j) * m.dx (m.ix.i_1k k + j)
            + m.g * geo.A (m.ix.i_1k k + j) * (s.h (m.ix.I_1k k + j) - s.h (m.ix.I_1k k + (j + 1)))
            = s.Q (m.ix.i_1k k + j) * m.dx (m.ix.i_1k k + j) / inp.dt * geo.sigma (m.ix.i_1k k + j)
              + m.g * geo.A (m.ix.i_1k k + j) * (m.S_o (m.ix.i_1k k + j) * m.dx (m.ix.i_1k k + j)
                + s.h (m.ix.I_1k k + j) - s.h (m.ix.I_1k k + j + 1)) := by
          rw [← add_assoc (m.ix.I_1k k)]; ring
        rw [e']
        have e3 : m.dx (m.ix.i_1k k + j) / inp.dt * geo.sigma (m.ix.i_1k k + j) * |s.Q (m.ix.i_1k k + j)|
            = |s.Q (m.ix.i_1k k + j)| * m.dx (m.ix.i_1k k + j) / inp.dt * geo.sigma (m.ix.i_1k k + j) := by ring
        rw [e3]
        split_ifs <;> linarith)
  rw [(nd 0 (by omega)).1, (nd (m.ix.nk k) le_rfl).1] at key
  exact key

/-- For any heads at the ends the equations of a superlink have a solution with the end flows and end depths
the relations of the step give for these heads. -/
theorem solution_exists (c : m.Consistent) (ps : PhysicalStep m geo inp) (he : m.end_method = .b)
    (hc : StepCoefs m.g m.N (m.linkIn geo inp s s) (m.nodeIn geo inp s) m.nix co) {k : ℕ} (hk : k < m.ix.NK)
    (Hu Hd : ℝ) :
    ∃ Q h, SaintVenant m.g (co.slice (m.ix.i_1k k) (m.ix.I_1k k)) (m.ix.nk k) Q h
        (Quk (m.endRec wk co k) (m.headCoef geo s k) Hu Hd) (Qdk (m.endRec wk co k) (m.headCoef geo s k) Hu Hd) ∧
      h 0 = huk (m.endRec wk co k) (m.headCoef geo s k) Hu Hd ∧
      h (m.ix.nk k) = hdk (m.endRec wk co k) (m.headCoef geo s k) Hu Hd := by
  have n1 := c.layout.pos k hk
  have ph := physical c ps hc hk
  have F := sweptFwd_rel m.g co m.ix wk.f c.layout hk
  have B := sweptBwd_rel m.g co m.ix wk.b c.layout hk
  have D0 : DkStar (m.endRec wk co k) (m.headCoef geo s k) ≠ 0 :=
    ne_of_gt (lt_of_lt_of_le zero_lt_one (DkStar_ge_one (step_endSigns c ps hc hk) (step_headSigns ps hk)))
  obtain ⟨bk, fk, -, -⟩ := C04_end_relations (m.endRec wk co k) (m.headCoef geo s k) Hu Hd D0
  obtain ⟨Q, h, Qu, Qd, S, h0, hn⟩ := exists_solution n1 F (physical_fwdPivots ph F)
    (huk (m.endRec wk co k) (m.headCoef geo s k) Hu Hd) (hdk (m.endRec wk co k) (m.headCoef geo s k) Hu Hd)
  have fs := fwd_sound F (physical_fwdPivots ph F) S (m.ix.nk k - 1) (by omega)
  have bs := bwd_sound B (physical_bwdPivots ph B) S 0 n1
  have c0 := S.continuity 0 (by omega)
  have cn := S.continuity (m.ix.nk k) le_rfl
  rw [qIn_zero, qOut_lt _ _ n1] at c0
  rw [qOut_end] at cn
  have en : m.ix.nk k - 1 + 1 = m.ix.nk k := by omega
  have qn : qIn Q Qu (m.ix.nk k) = Q (m.ix.nk k - 1) := by rw [qIn, if_neg (by omega)]
  rw [qn, hn] at cn
  rw [h0] at c0
  rw [en, h0, hn] at fs
  rw [h0, hn] at bs
  have eQu : Qu = Quk (m.endRec wk co k) (m.headCoef geo s k) Hu Hd := by
    rw [bk]
    generalize huk (m.endRec wk co k) (m.headCoef geo s k) Hu Hd = a at *
    generalize hdk (m.endRec wk co k) (m.headCoef geo s k) Hu Hd = b at *
    unfold Model.endRec Superlink.endRec
    rw [he]
    simp only [add_zero, Model.bwd] at bs ⊢
    linear_combination bs - c0
  have eQd : Qd = Qdk (m.endRec wk co k) (m.headCoef geo s k) Hu Hd := by
    rw [fk]
    generalize huk (m.endRec wk co k) (m.headCoef geo s k) Hu Hd = a at *
    generalize hdk (m.endRec wk co k) (m.headCoef geo s k) Hu Hd = b at *
    unfold Model.endRec Superlink.endRec
    rw [he]
    simp only [Model.fwd] at fs ⊢
    linear_combination fs + cn
  exact ⟨Q, h, eQu ▸ eQd ▸ S, h0, hn⟩

/-! ### C148 -/

/-- **C148 (at given heads).** The end flows the relations of the step give for heads which differ by at most
`du`, `dd` from the heads before it. -/
theorem C148_at_heads (c : m.Consistent) (st : StartTables m) (ps : PhysicalStep m geo inp) (he : m.end_method = .b)
    (hc : StepCoefs m.g m.N (m.linkIn geo inp s s) (m.nodeIn geo inp s) m.nix co) {k : ℕ} (hk : k < m.ix.NK)
    (hu : 0 < geo.A_u k) (hd : 0 < geo.A_d k) (ft : FitsEnds m geo s k)
    (lat : ∀ j, j ≤ m.ix.nk k → inp.Q_0Ik (m.ix.I_1k k + j) = 0)
    (wide : ∀ j, 1 ≤ j → j < m.ix.nk k → 0 < surfaceArea m geo k j)
    {du dd B Hu Hd : ℝ} (bd : Bounded m geo inp s k du dd B)
    (hHu : |Hu - s.H (m.Ju k)| ≤ du) (hHd : |Hd - s.H (m.Jd k)| ≤ dd) :
    |Quk (m.endRec wk co k) (m.headCoef geo s k) Hu Hd| ≤ B + surfaceArea m geo k 0 / inp.dt * du ∧
    |Qdk (m.endRec wk co k) (m.headCoef geo s k) Hu Hd| ≤ B + surfaceArea m geo k (m.ix.nk k) / inp.dt * dd := by
  obtain ⟨Q, h, S, h0, hn⟩ := solution_exists (wk := wk) c ps he hc hk Hu Hd
  exact (solution_bounded c st ps hc hk hu hd ft lat wide bd hHu hHd S h0 hn).2

/-- **C148 (end flows).** A step from a state whose end depths fit the heads, without lateral inflow: the
reported flows at the ends of a superlink whose heads move by at most `du`, `dd`, clipped or not. -/
theorem C148_end_flows (c : m.Consistent) (st : StartTables m) (ps : PhysicalStep m geo inp) (he : m.end_method = .b)
    (p : Pass m geo inp wk s s co x) {k : ℕ} (hk : k < m.ix.NK)
    (hu : 0 < geo.A_u k) (hd : 0 < geo.A_d k) (ft : FitsEnds m geo s k)
    (lat : ∀ j, j ≤ m.ix.nk k → inp.Q_0Ik (m.ix.I_1k k + j) = 0)
    (wide : ∀ j, 1 ≤ j → j < m.ix.nk k → 0 < surfaceArea m geo k j)
    {du dd B : ℝ} (bd : Bounded m geo inp s k du dd B)
    (hHu : |(m.advance geo inp wk s co x).H (m.Ju k) - s.H (m.Ju k)| ≤ du)
    (hHd : |(m.advance geo inp wk s co x).H (m.Jd k) - s.H (m.Jd k)| ≤ dd) :
    |(m.advance geo inp wk s co x).Qu k| ≤ B + surfaceArea m geo k 0 / inp.dt * du ∧
    |(m.advance geo inp wk s co x).Qd k| ≤ B + surfaceArea m geo k (m.ix.nk k) / inp.dt * dd :=
  C148_at_heads (wk := wk) c st ps he p.coefs hk hu hd ft lat wide bd hHu hHd

/-- **C148 (links).** If in addition no bound was active in the step, no link of the superlink carries more
than `B`. -/
theorem C148_flows (c : m.Consistent) (st : StartTables m) (ps : PhysicalStep m geo inp) (he : m.end_method = .b)
    (p : Pass m geo inp wk s s co x) {k : ℕ} (hk : k < m.ix.NK)
    (hu : 0 < geo.A_u k) (hd : 0 < geo.A_d k) (ft : FitsEnds m geo s k)
    (lat : ∀ j, j ≤ m.ix.nk k → inp.Q_0Ik (m.ix.I_1k k + j) = 0)
    (wide : ∀ j, 1 ≤ j → j < m.ix.nk k → 0 < surfaceArea m geo k j)
    {du dd B : ℝ} (bd : Bounded m geo inp s k du dd B)
    (hHu : |(m.advance geo inp wk s co x).H (m.Ju k) - s.H (m.Ju k)| ≤ du)
    (hHd : |(m.advance geo inp wk s co x).H (m.Jd k) - s.H (m.Jd k)| ≤ dd)
    (uc : Unclipped m x (m.advance geo inp wk s co x)
      (endDepthU m geo wk s co (m.advance geo inp wk s co x).H)
      (endDepthD m geo wk s co (m.advance geo inp wk s co x).H)) :
    ∀ j, j < m.ix.nk k → |(m.advance geo inp wk s co x).Q (m.ix.i_1k k + j)| ≤ B := by
  have S := C01_step c ps p he uc hk
  obtain ⟨h0, hn⟩ := C04_reported_end_depths c uc hk
  exact (solution_bounded c st ps p.coefs hk hu hd ft lat wide bd hHu hHd S h0 hn).1

/-- **C148 (depths).** Then every inner depth moves by at most what the flow `2 B` fills in the time step. -/
theorem C148_depths (c : m.Consistent) (st : StartTables m) (ps : PhysicalStep m geo inp) (he : m.end_method = .b)
    (p : Pass m geo inp wk s s co x) {k : ℕ} (hk : k < m.ix.NK)
    (hu : 0 < geo.A_u k) (hd : 0 < geo.A_d k) (ft : FitsEnds m geo s k)
    (lat : ∀ j, j ≤ m.ix.nk k → inp.Q_0Ik (m.ix.I_1k k + j) = 0)
    (wide : ∀ j, 1 ≤ j → j < m.ix.nk k → 0 < surfaceArea m geo k j)
    {du dd B : ℝ} (bd : Bounded m geo inp s k du dd B)
    (hHu : |(m.advance geo inp wk s co x).H (m.Ju k) - s.H (m.Ju k)| ≤ du)
    (hHd : |(m.advance geo inp wk s co x).H (m.Jd k) - s.H (m.Jd k)| ≤ dd)
    (uc : Unclipped m x (m.advance geo inp wk s co x)
      (endDepthU m geo wk s co (m.advance geo inp wk s co x).H)
      (endDepthD m geo wk s co (m.advance geo inp wk s co x).H)) :
    ∀ j, 1 ≤ j → j < m.ix.nk k →
      |(m.advance geo inp wk s co x).h (m.ix.I_1k k + j) - s.h (m.ix.I_1k k + j)|
        ≤ inp.dt * (2 * B) / surfaceArea m geo k j := by
  intro j h1 h2
  have fl := C148_flows c st ps he p hk hu hd ft lat wide bd hHu hHd uc
  have S := C01_step c ps p he uc hk
  have ce := ((saintVenant_iff c st ps p.coefs _ hk).1 S).2 j h2.le
  have w := wide j h1 h2
  have dt0 := ps.dt_pos
  unfold ContinuityEq arriving leaving at ce
  rw [if_neg (by omega), if_neg (by omega), lat j h2.le, Nat.add_sub_assoc h1] at ce
  have a1 := abs_le.mp (fl j h2)
  have a2 := abs_le.mp (fl (j - 1) (by omega))
  have e : (m.advance geo inp wk s co x).h (m.ix.I_1k k + j) - s.h (m.ix.I_1k k + j)
      = inp.dt * ((m.advance geo inp wk s co x).Q (m.ix.i_1k k + (j - 1))
        - (m.advance geo inp wk s co x).Q (m.ix.i_1k k + j)) / surfaceArea m geo k j := by
    rw [eq_div_iff w.ne']
    field_simp at ce
    linear_combination ce
  rw [e, abs_div, abs_of_pos w, abs_mul, abs_of_pos dt0]
  refine div_le_div_of_nonneg_right (mul_le_mul_of_nonneg_left ?_ dt0.le) w.le
  exact abs_le.mpr ⟨by linarith [a1.2, a2.1], by linarith [a1.1, a2.2]⟩

/-- **C148 (heads).** If the depths of all superlinks fit the heads and there is no lateral inflow, the heads
move, in volume and all superjunctions together, by no more than twice the bounds of the superlinks and what
external inflow and controls bring. -/
theorem C148_heads (c : m.Consistent) (st : StartTables m) (ps : PhysicalStep m geo inp) (cw : CleanWork m wk.mats)
    (he : m.end_method = .b) (p : Pass m geo inp wk s s co x)
    (hbc : ∀ i, i < m.M → m.bc i = true → s.H i = (inp.H_bc.getD s.H) i)
    (hlim : ∀ j, j < m.M → m.z_inv j ≤ s.H j ∧ s.H j ≤ m.z_inv j + m.max_depth j)
    (hu : ∀ k, k < m.ix.NK → 0 < geo.A_u k) (hd : ∀ k, k < m.ix.NK → 0 < geo.A_d k)
    (ft : ∀ k, k < m.ix.NK → FitsEnds m geo s k)
    (lat : ∀ k, k < m.ix.NK → ∀ j, j ≤ m.ix.nk k → inp.Q_0Ik (m.ix.I_1k k + j) = 0)
    (wide : ∀ k, k < m.ix.NK → ∀ j, 1 ≤ j → j < m.ix.nk k → 0 < surfaceArea m geo k j)
    {B : ℕ → ℝ} (bd : ∀ k, k < m.ix.NK → Bounded m geo inp s k 0 0 (B k)) :
    ∑ j ∈ free m, surfaceAt m geo s j * |(m.advance geo inp wk s co x).H j - s.H j|
      ≤ inp.dt * (2 * ∑ k ∈ Finset.range m.ix.NK, B k
        + ∑ j ∈ free m, |inp.Q_in j + (m.net geo inp wk s co).orifices.inflow s.H j
            + (m.net geo inp wk s co).weirs.inflow s.H j + (m.net geo inp wk s co).pumps.inflow s.H j|) := by
  refine (C138_moves c ps cw p hbc hlim).trans (mul_le_mul_of_nonneg_left ?_ ps.dt_pos.le)
  have fl : ∀ k, k < m.ix.NK →
      |Quk (m.endRec wk co k) (m.headCoef geo s k) (s.H (m.Ju k)) (s.H (m.Jd k))| ≤ B k ∧
      |Qdk (m.endRec wk co k) (m.headCoef geo s k) (s.H (m.Ju k)) (s.H (m.Jd k))| ≤ B k := by
    intro k hk
    have := C148_at_heads (wk := wk) c st ps he p.coefs hk (hu k hk) (hd k hk) (ft k hk) (lat k hk) (wide k hk) (bd k hk)
      (Hu := s.H (m.Ju k)) (Hd := s.H (m.Jd k)) (by simp) (by simp)
    simpa using this
  have B0 : ∀ k, k < m.ix.NK → 0 ≤ B k := fun k hk => (abs_nonneg _).trans (fl k hk).1
  calc ∑ j ∈ free m, |netInflow m geo inp wk s co s.H j|
      ≤ ∑ j ∈ free m, ((∑ k ∈ Finset.range m.ix.NK, ((if m.Jd k = j then B k else 0) + (if m.Ju k = j then B k else 0)))
          + |inp.Q_in j + (m.net geo inp wk s co).orifices.inflow s.H j
            + (m.net geo inp wk s co).weirs.inflow s.H j + (m.net geo inp wk s co).pumps.inflow s.H j|) := by
        refine Finset.sum_le_sum fun j _ => ?_
        have e : netInflow m geo inp wk s co s.H j
            = (∑ k ∈ Finset.range m.ix.NK,
                ((if m.Jd k = j then Qdk (m.endRec wk co k) (m.headCoef geo s k) (s.H (m.Ju k)) (s.H (m.Jd k)) else 0)
                - (if m.Ju k = j then Quk (m.endRec wk co k) (m.headCoef geo s k) (s.H (m.Ju k)) (s.H (m.Jd k)) else 0)))
              + (inp.Q_in j + (m.net geo inp wk s co).orifices.inflow s.H j
                + (m.net geo inp wk s co).weirs.inflow s.H j + (m.net geo inp wk s co).pumps.inflow s.H j) := by
          unfold netInflow; ring
        rw [e]
        refine (abs_add_le _ _).trans (add_le_add_left ((Finset.abs_sum_le_sum_abs _ _).trans
          (Finset.sum_le_sum fun k hk => ?_)) _)
        obtain ⟨f1, f2⟩ := fl k (Finset.mem_range.mp hk)
        refine (abs_sub _ _).trans ?_
        refine add_le_add ?_ ?_ <;> split_ifs
        exacts [f2, abs_zero.le, f1, abs_zero.le]
    _ = (∑ j ∈ free m, ∑ k ∈ Finset.range m.ix.NK, ((if m.Jd k = j then B k else 0) + (if m.Ju k = j then B k else 0)))
          + ∑ j ∈ free m, |inp.Q_in j + (m.net geo inp wk s co).orifices.inflow s.H j
            + (m.net geo inp wk s co).weirs.inflow s.H j + (m.net geo inp wk s co).pumps.inflow s.H j| :=
        Finset.sum_add_distrib
    _ ≤ _ := by
        refine add_le_add_left ?_ _
        rw [Finset.sum_comm, Finset.mul_sum]
        refine Finset.sum_le_sum fun k hk => ?_
        have hk := Finset.mem_range.mp hk
        rw [Finset.sum_add_distrib, Finset.sum_ite_eq, Finset.sum_ite_eq]
        have := B0 k hk
        split_ifs <;> linarith

/-! ### Non-vacuity -/

/-- Water at rest with level heads 5 whose surface is 0.2 too high at the middle junction. -/
noncomputable def exBump : Hyd := { exStill with h := fun I => if I = 1 then 4.2 else 5 - exBed I }

theorem exBumpFits (fx : Bool) : FitsEnds (exModel fx) exGeo exBump 0 := by
  constructor <;> norm_num [exModel, exGeo, exBump, exStill, exBed]

theorem exBumpBounded (fx : Bool) : Bounded (exModel fx) exGeo exInp exBump 0 0 0 12 := by
  refine ⟨by norm_num [exBump, exStill], by norm_num [exBump, exStill], fun j hj => ?_⟩
  have : j = 0 ∨ j = 1 := by simp only [exModel] at hj; omega
  rcases this with rfl | rfl
  · norm_num [push, exModel, exGeo, exInp, exBump, exStill, exBed]
  · norm_num [push, exModel, exGeo, exInp, exBump, exStill, exBed]

/-- The bump satisfies every hypothesis of `C148_heads` and `C148_at_heads`. -/
example : ∃ co x, Pass (exModel false) exGeo exInp exWork exBump exBump co x ∧
    |Quk ((exModel false).endRec exWork co 0) ((exModel false).headCoef exGeo exBump 0) 5 5| ≤ 12 ∧
    ∑ j ∈ free (exModel false), surfaceAt (exModel false) exGeo exBump j
        * |((exModel false).advance exGeo exInp exWork exBump co x).H j - exBump.H j|
      ≤ 60 * (2 * 12 + ∑ j ∈ free (exModel false), |0
            + ((exModel false).net exGeo exInp exWork exBump co).orifices.inflow exBump.H j
            + ((exModel false).net exGeo exInp exWork exBump co).weirs.inflow exBump.H j
            + ((exModel false).net exGeo exInp exWork exBump co).pumps.inflow exBump.H j|) := by
  obtain ⟨co, x, p⟩ := C06_step_exists (prev := exBump) (cur := exBump) (exConsistent false) (exPhysical false)
    (exClean false) (fun _ _ => Or.inl rfl)
  have k0 : ∀ k, k < (exModel false).ix.NK → k = 0 := fun k hk => by simp only [exModel] at hk; omega
  have wide : ∀ j, 0 < surfaceArea (exModel false) exGeo 0 j := by
    intro j; unfold surfaceArea; simp only [exModel, exGeo]; norm_num; split_ifs <;> norm_num
  refine ⟨co, x, p, ?_, ?_⟩
  · have := (C148_at_heads (wk := exWork) (exConsistent false) (exStartTables false) (exPhysical false) rfl p.coefs
      (k := 0) (by norm_num [exModel]) (by norm_num [exGeo]) (by norm_num [exGeo]) (exBumpFits false)
      (fun _ _ => rfl) (fun j _ _ => wide j) (exBumpBounded false) (Hu := 5) (Hd := 5) (by norm_num [exBump, exStill])
      (by norm_num [exBump, exStill])).1
    simpa using this
  · have h := C148_heads (B := fun _ => 12) (exConsistent false) (exStartTables false) (exPhysical false) (exClean false)
      rfl p (fun _ _ h => by simp [exModel] at h) (fun j _ => by norm_num [exModel, exBump, exStill])
      (fun _ _ => by norm_num [exGeo]) (fun _ _ => by norm_num [exGeo]) (fun k hk => k0 k hk ▸ exBumpFits false)
      (fun _ _ _ _ => rfl) (fun k hk j _ _ => k0 k hk ▸ wide j) (fun k hk => k0 k hk ▸ exBumpBounded false)
    have e : (Finset.range (exModel false).ix.NK).sum (fun _ => (12 : ℝ)) = 12 := by simp [exModel]
    rw [e] at h
    exact h

end Pipedream.Step
