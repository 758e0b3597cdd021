import Verif.FloorProps
import Verif.InitialProps

/-!
# C152: water at rest rises nowhere above its highest level

A step from rest, whatever the levels: no head and no water surface leaves the range of the levels before the step
(widened by prescribed heads). Every pipe end has to be below water; a pipe end above it breaks the rule.
-/

namespace Pipedream.Step

open Pipedream.Sweep Pipedream.Link Pipedream.Superlink Pipedream.Control Pipedream.Network

/-! ### One superlink -/

section
variable {K : Type*} [Field K] [LinearOrder K] [IsStrictOrderedRing K]

/-- Without advection, friction aside: the surface stays below the highest of the levels before the step and the heads
at the ends, and an end at this highest level lets water in. -/
theorem rest_upper {g : K} {co : Coef K} {n : ℕ} {Q h d z : ℕ → K} {Qu Qd T Hu Hd : K}
    (hn : 1 ≤ n) (ph : Physical g co n) (S : SaintVenant g co n Q h Qu Qd)
    (ha : ∀ j, j < n → co.a j = 0) (hc : ∀ j, j < n → co.c j = 0)
    (hP : ∀ j, j < n → co.P j = g * co.A j * (z j - z (j + 1)))
    (hD : ∀ j, j ≤ n → co.D j ≤ co.E j * d j) (hE : ∀ j, 1 ≤ j → j < n → 0 < co.E j)
    (lev : ∀ j, j ≤ n → d j + z j ≤ T) (hu : h 0 + z 0 = Hu) (hd : h n + z n = Hd) :
    (∀ G, T ≤ G → Hu ≤ G → Hd ≤ G → ∀ j, j ≤ n → h j + z j ≤ G) ∧
    (T ≤ Hu → Hd ≤ Hu → 0 ≤ Qu) ∧ (T ≤ Hd → Hu ≤ Hd → Qd ≤ 0) := by
  have g0 := ph.g_pos
  have mo : ∀ i, i < n → co.b i * Q i = g * co.A i * (h i + z i - (h (i + 1) + z (i + 1))) := by
    intro i hi
    have := S.momentum i hi
    rw [ha i hi, hc i hi, hP i hi] at this
    linear_combination this
  have b0 : ∀ i, i < n → 0 < co.b i := by
    intro i hi
    have := ph.abc_pos i hi
    rwa [ha i hi, hc i hi, zero_add, add_zero] at this
  have down : ∀ i, i < n → h (i + 1) + z (i + 1) ≤ h i + z i → 0 ≤ Q i := by
    intro i hi hl
    have h1 := mul_nonneg (mul_pos g0 (ph.A_pos i hi)).le (sub_nonneg.mpr hl)
    rw [← mo i hi] at h1
    exact nonneg_of_mul_nonneg_right h1 (b0 i hi)
  have up : ∀ i, i < n → h i + z i ≤ h (i + 1) + z (i + 1) → Q i ≤ 0 := by
    intro i hi hl
    have h1 := mul_nonpos_of_nonneg_of_nonpos (mul_pos g0 (ph.A_pos i hi)).le (sub_nonpos.mpr hl)
    rw [← mo i hi] at h1
    exact nonpos_of_mul_nonpos_right h1 (b0 i hi)
  have surf : ∀ G, T ≤ G → Hu ≤ G → Hd ≤ G → ∀ j, j ≤ n → h j + z j ≤ G := by
    intro G hT hHu hHd
    obtain ⟨i, hi, him⟩ := Finset.exists_max_image (Finset.range (n + 1)) (fun j => h j + z j) ⟨0, by simp⟩
    have hi : i ≤ n := Nat.lt_succ_iff.mp (Finset.mem_range.mp hi)
    have him : ∀ j, j ≤ n → h j + z j ≤ h i + z i := fun j hj => him j (Finset.mem_range.mpr (Nat.lt_succ_of_le hj))
    suffices hs : h i + z i ≤ G from fun j hj => (him j hj).trans hs
    rcases Nat.eq_zero_or_pos i with e | e
    · rw [e, hu]; exact hHu
    · rcases eq_or_lt_of_le hi with e' | e'
      · rw [e', hd]; exact hHd
      · obtain ⟨j, rfl⟩ : ∃ j, i = j + 1 := ⟨i - 1, by omega⟩
        have cc := S.continuity (j + 1) (by omega)
        rw [qIn_succ, qOut_lt _ _ e'] at cc
        have q1 := up j (by omega) (him j (by omega))
        have q2 := down (j + 1) e' (him (j + 1 + 1) (by omega))
        have h4 : co.E (j + 1) * (h (j + 1) - d (j + 1)) ≤ 0 := by linarith [hD (j + 1) (by omega)]
        have := nonpos_of_mul_nonpos_right h4 (hE (j + 1) (by omega) e')
        linarith [lev (j + 1) (by omega)]
  refine ⟨surf, fun hT hH => ?_, fun hT hH => ?_⟩
  · have c0 := S.continuity 0 (by omega)
    rw [qIn_zero, qOut_lt _ _ (by omega)] at c0
    have q := down 0 (by omega) (by rw [hu]; exact surf Hu hT le_rfl hH 1 hn)
    have h1 : 0 ≤ co.E 0 * (h 0 - d 0) :=
      mul_nonneg (ph.E_nonneg 0 (by omega)) (by linarith [lev 0 (by omega)])
    linarith [hD 0 (by omega)]
  · have cn := S.continuity n le_rfl
    have qn : qIn Q Qu n = Q (n - 1) := by rw [qIn, if_neg (by omega)]
    rw [qOut_end, qn] at cn
    obtain ⟨j, rfl⟩ : ∃ j, n = j + 1 := ⟨n - 1, by omega⟩
    rw [Nat.add_sub_cancel] at cn
    have q := up j (by omega) (by rw [hd]; exact surf Hd hT hH le_rfl j (by omega))
    have h1 : 0 ≤ co.E (j + 1) * (h (j + 1) - d (j + 1)) :=
      mul_nonneg (ph.E_nonneg _ le_rfl) (by linarith [lev (j + 1) le_rfl])
    linarith [hD (j + 1) le_rfl]

/-- The same for the lowest level. -/
theorem rest_lower {g : K} {co : Coef K} {n : ℕ} {Q h d z : ℕ → K} {Qu Qd T Hu Hd : K}
    (hn : 1 ≤ n) (ph : Physical g co n) (S : SaintVenant g co n Q h Qu Qd)
    (ha : ∀ j, j < n → co.a j = 0) (hc : ∀ j, j < n → co.c j = 0)
    (hP : ∀ j, j < n → co.P j = g * co.A j * (z j - z (j + 1)))
    (hD : ∀ j, j ≤ n → co.E j * d j ≤ co.D j) (hE : ∀ j, 1 ≤ j → j < n → 0 < co.E j)
    (lev : ∀ j, j ≤ n → T ≤ d j + z j) (hu : h 0 + z 0 = Hu) (hd : h n + z n = Hd) :
    (∀ G, G ≤ T → G ≤ Hu → G ≤ Hd → ∀ j, j ≤ n → G ≤ h j + z j) ∧
    (Hu ≤ T → Hu ≤ Hd → Qu ≤ 0) ∧ (Hd ≤ T → Hd ≤ Hu → 0 ≤ Qd) := by
  let co' : Coef K := { co with P := fun j => -co.P j, D := fun j => -co.D j }
  have ph' : Physical g co' n := ⟨ph.g_pos, ph.A_pos, ph.a_nonpos, ph.c_nonpos, ph.abc_pos, ph.E_nonneg⟩
  have S' : SaintVenant g co' n (fun j => -Q j) (fun j => -h j) (-Qu) (-Qd) := by
    have qi : ∀ j, qIn (fun j => -Q j) (-Qu) j = -qIn Q Qu j := by intro j; unfold qIn; split_ifs <;> rfl
    have qo : ∀ j, qOut n (fun j => -Q j) (-Qd) j = -qOut n Q Qd j := by intro j; unfold qOut; split_ifs <;> rfl
    refine ⟨fun i hi => ?_, fun I hI => ?_⟩
    · have := S.momentum i hi
      rw [qi, qo]
      show co.a i * _ + co.b i * _ + co.c i * _ = -co.P i + g * co.A i * _
      linear_combination -this
    · have := S.continuity I hI
      rw [qi, qo]
      show _ - _ + co.E I * _ = -co.D I
      linear_combination -this
  obtain ⟨u1, u2, u3⟩ := rest_upper (d := fun j => -d j) (z := fun j => -z j) (T := -T) (Hu := -Hu) (Hd := -Hd) hn ph' S'
    ha hc (fun j hj => by show -co.P j = g * co.A j * _; rw [hP j hj]; ring)
    (fun j hj => by show -co.D j ≤ co.E j * _; linarith [hD j hj]) hE
    (fun j hj => by linarith [lev j hj]) (by rw [← hu]; ring) (by rw [← hd]; ring)
  refine ⟨fun G h1 h2 h3 j hj => ?_, fun h1 h2 => ?_, fun h1 h2 => ?_⟩
  · have := u1 (-G) (by linarith) (by linarith) (by linarith) j hj
    linarith
  · have := u2 (by linarith) (by linarith)
    linarith
  · have := u3 (by linarith) (by linarith)
    linarith

end

noncomputable section

variable {m : Model} {geo : Geo} {inp : Inputs} {wk : Work} {s : Hyd} {co : Coef ℝ} {x : ℕ → ℝ} {zI : ℕ → ℝ}

/-! ### Specification -/

/-- Nothing flows, in pipes and controls. -/
structure AtRest (m : Model) (s : Hyd) : Prop where
  Q : ∀ k, k < m.ix.NK → ∀ j, j < m.ix.nk k → s.Q (m.ix.i_1k k + j) = 0
  Qu : ∀ k, k < m.ix.NK → s.Qu k = 0
  Qd : ∀ k, k < m.ix.NK → s.Qd k = 0
  Qo : ∀ o, o < m.n_o → s.Qo o = 0
  Qw : ∀ w, w < m.n_w → s.Qw w = 0

/-- All pipe ends are below water, pumps are off or dry, pipes have a free surface or a slot. -/
structure Calm (m : Model) (geo : Geo) (inp : Inputs) (s : Hyd) : Prop where
  up : ∀ k, k < m.ix.NK → m.z_uk k ≤ s.H (m.Ju k)
  down : ∀ k, k < m.ix.NK → m.z_dk k ≤ s.H (m.Jd k)
  pumps : ∀ p, p < m.n_p → (inp.u_p p = 0 ∧ (m.pump p).c ≠ 0) ∨ s.H (m.Jup p) ≤ (m.pump p).z_inv + (m.pump p).z_p
  wide : ∀ k, k < m.ix.NK → ∀ j, 1 ≤ j → j < m.ix.nk k → 0 < surfaceArea m geo k j

/-- All levels, of the superjunctions and in the pipes, are at most `T`. -/
structure Below (m : Model) (zI : ℕ → ℝ) (T : ℝ) (s : Hyd) : Prop where
  H : ∀ i, i < m.M → s.H i ≤ T
  h : ∀ k, k < m.ix.NK → ∀ j, j ≤ m.ix.nk k → s.h (m.ix.I_1k k + j) + zI (m.ix.I_1k k + j) ≤ T

/-- All levels are at least `T`. -/
structure Above (m : Model) (zI : ℕ → ℝ) (T : ℝ) (s : Hyd) : Prop where
  H : ∀ i, i < m.M → T ≤ s.H i
  h : ∀ k, k < m.ix.NK → ∀ j, j ≤ m.ix.nk k → T ≤ s.h (m.ix.I_1k k + j) + zI (m.ix.I_1k k + j)

/-- No water is supplied, and heads are prescribed at most at `T`. -/
structure NoneIn (m : Model) (inp : Inputs) (T : ℝ) : Prop where
  Q_in : ∀ i, i < m.M → inp.Q_in i ≤ 0
  Q_0 : ∀ I, inp.Q_0Ik I ≤ 0
  H_bc : ∀ f, inp.H_bc = some f → ∀ i, i < m.M → m.bc i = true → f i ≤ T

/-- No water is withdrawn, and heads are prescribed at least at `T`. -/
structure NoneOut (m : Model) (inp : Inputs) (T : ℝ) : Prop where
  Q_in : ∀ i, i < m.M → 0 ≤ inp.Q_in i
  Q_0 : ∀ I, 0 ≤ inp.Q_0Ik I
  H_bc : ∀ f, inp.H_bc = some f → ∀ i, i < m.M → m.bc i = true → T ≤ f i

/-! ### Lemmas -/

/-- At rest the equations of a superlink have no advection, and the end depths are the heads above the inverts. -/
theorem rest_coefs (c : m.Consistent) (st : StartTables m) (ps : PhysicalStep m geo inp) (bed : Bed m zI)
    (hc : StepCoefs m.g m.N (m.linkIn geo inp s s) (m.nodeIn geo inp s) m.nix co) (rs : AtRest m s) {k : ℕ}
    (hk : k < m.ix.NK) :
    (∀ j, j < m.ix.nk k → (co.slice (m.ix.i_1k k) (m.ix.I_1k k)).a j = 0) ∧
    (∀ j, j < m.ix.nk k → (co.slice (m.ix.i_1k k) (m.ix.I_1k k)).c j = 0) ∧
    (∀ j, j < m.ix.nk k → (co.slice (m.ix.i_1k k) (m.ix.I_1k k)).P j
      = m.g * (co.slice (m.ix.i_1k k) (m.ix.I_1k k)).A j * (zI (m.ix.I_1k k + j) - zI (m.ix.I_1k k + (j + 1)))) ∧
    (∀ j, j ≤ m.ix.nk k → (co.slice (m.ix.i_1k k) (m.ix.I_1k k)).E j = surfaceArea m geo k j / inp.dt ∧
      (co.slice (m.ix.i_1k k) (m.ix.I_1k k)).D j = inp.Q_0Ik (m.ix.I_1k k + j)
        + (co.slice (m.ix.i_1k k) (m.ix.I_1k k)).E j * s.h (m.ix.I_1k k + j)) := by
  have hN := c.inN k hk
  have vu : ∀ j, j < m.ix.nk k → velocityUp m geo s k j = 0 := by
    intro j hj
    unfold velocityUp
    have q1 := rs.Q k hk j hj
    by_cases h0 : j = 0
    · rw [if_pos h0, q1, zero_div]
    · have q2 := rs.Q k hk (j - 1) (by omega)
      rw [← Nat.add_sub_assoc (by omega)] at q2
      simp [h0, q1, q2]
  have vd : ∀ j, j < m.ix.nk k → velocityDown m geo s k j = 0 := by
    intro j hj
    unfold velocityDown
    have q1 := rs.Q k hk j hj
    by_cases h0 : j + 1 = m.ix.nk k
    · simp [h0, q1]
    · have q2 := rs.Q k hk (j + 1) (by omega)
      rw [← add_assoc] at q2
      simp [h0, q1, q2]
  refine ⟨fun j hj => ?_, fun j hj => ?_, fun j hj => ?_, fun j hj => ?_⟩
  · obtain ⟨h, -⟩ := hc.1 (m.ix.i_1k k + j) (by omega)
    simp only [Coef.slice]
    rw [h]
    simp only [LinkIn.a, Model.linkIn, aIk]
    rw [velocityUp_eq c ps st hk hj, vu j hj]
    simp
  · obtain ⟨-, -, h, -⟩ := hc.1 (m.ix.i_1k k + j) (by omega)
    simp only [Coef.slice]
    rw [h]
    simp only [LinkIn.c, Model.linkIn, cIk]
    rw [velocityDown_eq c ps st hk hj, vd j hj]
    simp
  · obtain ⟨-, -, -, hP, hA⟩ := hc.1 (m.ix.i_1k k + j) (by omega)
    simp only [Coef.slice]
    rw [hP, hA]
    simp only [LinkIn.P, Model.linkIn, PIk]
    rw [rs.Q k hk j hj, ← bed.slope k hk j hj]
    ring
  · obtain ⟨eE, eD⟩ := node_coeffs_eq (y := m.nodeIn geo inp s) (c.layout.pos k hk) (c.nodes k hk) hj
    simp only [Coef.slice]
    rw [hc.2.1, hc.2.2, eE, eD, surfaceArea_eq]
    exact ⟨rfl, rfl⟩

/-- End depths at rest. -/
theorem rest_ends (rs : AtRest m s) (cl : Calm m geo inp s) (bed : Bed m zI) {k : ℕ} (hk : k < m.ix.NK) {Q1 Q2 H1 H2 : ℝ} :
    (m.headCoef geo s k).kappa_u * Q1 + (m.headCoef geo s k).lam_u * H1 + (m.headCoef geo s k).mu_u
      + zI (m.ix.I_1k k) = H1 ∧
    (m.headCoef geo s k).kappa_d * Q2 + (m.headCoef geo s k).lam_d * H2 + (m.headCoef geo s k).mu_d
      + zI (m.ix.I_1k k + m.ix.nk k) = H2 := by
  have hu := cl.up k hk
  have hd := cl.down k hk
  rw [bed.up k hk, bed.down k hk]
  simp only [Model.headCoef, headCoefZ, theta, ge_iff_le, if_pos hu, if_pos hd, gammaUk, gammaDk, rs.Qu k hk, rs.Qd k hk,
    safeDivide_eq]
  constructor <;> · simp

/-- At rest no control takes part in the balances. -/
theorem rest_controls (rs : AtRest m s)
    (off : ∀ p, p < m.n_p → (inp.u_p p = 0 ∧ (m.pump p).c ≠ 0) ∨ s.H (m.Jup p) ≤ (m.pump p).z_inv + (m.pump p).z_p)
    (H : ℕ → ℝ) (i : ℕ) :
    (m.net geo inp wk s co).orifices.inflow H i = 0 ∧ (m.net geo inp wk s co).weirs.inflow H i = 0 ∧
    (m.net geo inp wk s co).pumps.inflow H i = 0 := by
  refine ⟨Finset.sum_eq_zero fun o ho => ?_, Finset.sum_eq_zero fun o ho => ?_, Finset.sum_eq_zero fun o ho => ?_⟩
  · have ho := Finset.mem_range.mp ho
    have e : (m.net geo inp wk s co).orifices.Q H o = 0 := by
      show (m.oLin geo inp wk s o).alpha * _ + (m.oLin geo inp wk s o).beta * _ + (m.oLin geo inp wk s o).chi = 0
      have g0 : gammaO (s.Qo o) (geo.Ao o) (m.Co o) m.g = 0 := by simp [gammaO, safeDivide_eq, rs.Qo o ho]
      simp only [Model.oLin, orificeLin, g0, orificeCoef]
      split_ifs <;> simp_all
    rw [e]; simp
  · have ho := Finset.mem_range.mp ho
    have e : (m.net geo inp wk s co).weirs.Q H o = 0 := by
      show (m.wLin inp wk s o).alpha * _ + (m.wLin inp wk s o).beta * _ + (m.wLin inp wk s o).chi = 0
      have g0 : ∀ X, gammaW (s.Qw o) X (m.weir o) = 0 := by simp [gammaW, safeDivide_eq, rs.Qw o ho]
      simp only [Model.wLin, weirLin, g0]
      split_ifs <;> simp_all
    rw [e]; simp
  · have ho := Finset.mem_range.mp ho
    have e : (m.net geo inp wk s co).pumps.Q H o = 0 := by
      show (m.pLin inp wk s o).alpha * _ + (m.pLin inp wk s o).beta * _ + (m.pLin inp wk s o).chi = 0
      rcases off o ho with ⟨h, -⟩ | h
      · simp only [Model.pLin, h]; exact pumpLin_off _ _ _ _ _ _ _
      · simp only [Model.pLin]
        rw [(C22_pump_dry (wk.lp o) (s.Qp o) (s.H (m.Jup o)) (s.H (m.Jdp o)) (inp.u_p o) (m.pump o) h).2]
        simp
    rw [e]; simp

/-- The sign of the superlink flows at a superjunction which stands highest. -/
theorem rest_link_upper (c : m.Consistent) (st : StartTables m) (ps : PhysicalStep m geo inp) (he : m.end_method = .b)
    (hc : StepCoefs m.g m.N (m.linkIn geo inp s s) (m.nodeIn geo inp s) m.nix co) (bed : Bed m zI) (rs : AtRest m s)
    (cl : Calm m geo inp s) {T : ℝ} (bl : Below m zI T s) (ni : NoneIn m inp T) {k : ℕ} (hk : k < m.ix.NK) (Hu Hd : ℝ) :
    (T ≤ Hu → Hd ≤ Hu → 0 ≤ Quk (m.endRec wk co k) (m.headCoef geo s k) Hu Hd) ∧
    (T ≤ Hd → Hu ≤ Hd → Qdk (m.endRec wk co k) (m.headCoef geo s k) Hu Hd ≤ 0) := by
  obtain ⟨Q, h, S, h0, hn⟩ := solution_exists (wk := wk) c ps he hc hk Hu Hd
  obtain ⟨ca, cc, cP, cN⟩ := rest_coefs c st ps bed hc rs hk
  have re := rest_ends (Q1 := Quk (m.endRec wk co k) (m.headCoef geo s k) Hu Hd)
    (Q2 := Qdk (m.endRec wk co k) (m.headCoef geo s k) Hu Hd) (H1 := Hu) (H2 := Hd) rs cl bed hk
  exact (rest_upper (d := fun j => s.h (m.ix.I_1k k + j)) (z := fun j => zI (m.ix.I_1k k + j)) (T := T) (Hu := Hu)
    (Hd := Hd) (c.layout.pos k hk) (physical c ps hc hk) S ca cc cP
    (fun j hj => by rw [(cN j hj).2]; linarith [ni.Q_0 (m.ix.I_1k k + j)])
    (fun j h1 h2 => by rw [(cN j h2.le).1]; exact div_pos (cl.wide k hk j h1 h2) ps.dt_pos)
    (fun j hj => bl.h k hk j hj) (by rw [h0]; exact re.1) (by rw [hn]; exact re.2)).2

/-- The sign of the superlink flows at a superjunction which stands lowest. -/
theorem rest_link_lower (c : m.Consistent) (st : StartTables m) (ps : PhysicalStep m geo inp) (he : m.end_method = .b)
    (hc : StepCoefs m.g m.N (m.linkIn geo inp s s) (m.nodeIn geo inp s) m.nix co) (bed : Bed m zI) (rs : AtRest m s)
    (cl : Calm m geo inp s) {T : ℝ} (ab : Above m zI T s) (no : NoneOut m inp T) {k : ℕ} (hk : k < m.ix.NK) (Hu Hd : ℝ) :
    (Hu ≤ T → Hu ≤ Hd → Quk (m.endRec wk co k) (m.headCoef geo s k) Hu Hd ≤ 0) ∧
    (Hd ≤ T → Hd ≤ Hu → 0 ≤ Qdk (m.endRec wk co k) (m.headCoef geo s k) Hu Hd) := by
  obtain ⟨Q, h, S, h0, hn⟩ := solution_exists (wk := wk) c ps he hc hk Hu Hd
  obtain ⟨ca, cc, cP, cN⟩ := rest_coefs c st ps bed hc rs hk
  have re := rest_ends (Q1 := Quk (m.endRec wk co k) (m.headCoef geo s k) Hu Hd)
    (Q2 := Qdk (m.endRec wk co k) (m.headCoef geo s k) Hu Hd) (H1 := Hu) (H2 := Hd) rs cl bed hk
  exact (rest_lower (d := fun j => s.h (m.ix.I_1k k + j)) (z := fun j => zI (m.ix.I_1k k + j)) (T := T) (Hu := Hu)
    (Hd := Hd) (c.layout.pos k hk) (physical c ps hc hk) S ca cc cP
    (fun j hj => by rw [(cN j hj).2]; linarith [no.Q_0 (m.ix.I_1k k + j)])
    (fun j h1 h2 => by rw [(cN j h2.le).1]; exact div_pos (cl.wide k hk j h1 h2) ps.dt_pos)
    (fun j hj => ab.h k hk j hj) (by rw [h0]; exact re.1) (by rw [hn]; exact re.2)).2

/-! ### C152 -/

/-- The storage coefficient of a free superjunction is positive. -/
theorem storage_pos (ps : PhysicalStep m geo inp) {i : ℕ} (hi : i < m.M) (hb : m.bc i = false) :
    0 < (m.net geo inp wk s co).As i / inp.dt + (m.net geo inp wk s co).links.xiSum i := by
  have h1 : 0 < geo.As i / inp.dt := div_pos (ps.As i hi hb) ps.dt_pos
  have h2 : 0 ≤ (m.net geo inp wk s co).links.xiSum i := by
    refine Finset.sum_nonneg fun k hk => ?_
    have hk : k < m.ix.NK := Finset.mem_range.mp hk
    have x1 : 0 ≤ (m.net geo inp wk s co).links.xi_u k := by
      show 0 ≤ xi (m.dx_uk k) (geo.B_u k) (theta (s.H (m.Ju k)) (m.z_uk k)) inp.dt
      have := ps.dxu k hk; have := ps.Bu k hk; have := ps.dt_pos
      unfold xi theta; split_ifs <;> positivity
    have x2 : 0 ≤ (m.net geo inp wk s co).links.xi_d k := by
      show 0 ≤ xi (m.dx_dk k) (geo.B_d k) (theta (s.H (m.Jd k)) (m.z_dk k)) inp.dt
      have := ps.dxd k hk; have := ps.Bd k hk; have := ps.dt_pos
      unfold xi theta; split_ifs <;> positivity
    refine add_nonneg ?_ ?_ <;> split_ifs <;> first | assumption | exact le_rfl
  exact add_pos_of_pos_of_nonneg h1 h2

/-- **C152 (heads, partial).** Nothing flows, no water is supplied, no pipe end is above water: after a step no head is
above the highest level before it (or the highest prescribed head). Missing: pipe ends above water, see
`C152_perched`. -/
theorem C152_no_higher_partial (c : m.Consistent) (st : StartTables m) (ps : PhysicalStep m geo inp)
    (cw : CleanWork m wk.mats) (he : m.end_method = .b) (bed : Bed m zI) (p : Pass m geo inp wk s s co x)
    (rs : AtRest m s) (cl : Calm m geo inp s) {T : ℝ} (bl : Below m zI T s) (ni : NoneIn m inp T)
    (inv : ∀ i, i < m.M → m.z_inv i ≤ s.H i) (i : ℕ) (hi : i < m.M) :
    x i ≤ T ∧ (m.advance geo inp wk s co x).H i ≤ T := by
  have key : ∀ i, i < m.M → x i ≤ T := by
    obtain ⟨j, hj, hjm⟩ := Finset.exists_max_image (Finset.range m.M) x ⟨i, Finset.mem_range.mpr hi⟩
    have hj := Finset.mem_range.mp hj
    have hjm : ∀ i, i < m.M → x i ≤ x j := fun i hi => hjm i (Finset.mem_range.mpr hi)
    suffices hs : x j ≤ T from fun i hi => (hjm i hi).trans hs
    have sol := (solves_iff (m.net geo inp wk s co) inp.dt wk.mats cw.mats (wired c) s.H inp.Q_in
      (inp.H_bc.getD s.H) x).mp p.solve j hj
    cases hb : m.bc j with
    | true =>
      rw [sol.1 hb]
      cases hf : inp.H_bc with
      | none => exact bl.H j hj
      | some f => exact ni.H_bc f hf j hj hb
    | false =>
      by_contra hT
      push Not at hT
      have bal := sol.2 hb
      unfold Network.Balanced at bal
      obtain ⟨o1, o2, o3⟩ := rest_controls (wk := wk) (co := co) rs cl.pumps x j
      rw [o1, o2, o3, add_zero, add_zero, add_zero] at bal
      have h1 : 0 < ((m.net geo inp wk s co).As j / inp.dt + (m.net geo inp wk s co).links.xiSum j) * (x j - s.H j) :=
        mul_pos (storage_pos ps hj hb) (by linarith [bl.H j hj])
      have h2 : (m.net geo inp wk s co).links.inflow x j ≤ 0 := by
        refine Finset.sum_nonpos fun k hk => ?_
        have hk : k < m.ix.NK := Finset.mem_range.mp hk
        obtain ⟨l1, l2⟩ := rest_link_upper (wk := wk) c st ps he p.coefs bed rs cl bl ni hk (x (m.Ju k)) (x (m.Jd k))
        refine sub_nonpos.mpr (le_trans (b := 0) ?_ ?_)
        · split_ifs with e
          · have e : m.Jd k = j := e
            exact l2 (by rw [e]; exact hT.le) (by rw [e]; exact hjm _ (c.Ju k hk))
          · exact le_rfl
        · split_ifs with e
          · have e : m.Ju k = j := e
            exact l1 (by rw [e]; exact hT.le) (by rw [e]; exact hjm _ (c.Jd k hk))
          · exact le_rfl
      linarith [ni.Q_in j hj]
  refine ⟨key i hi, ?_⟩
  show min (max (x i) (m.z_inv i)) (m.z_inv i + m.max_depth i) ≤ T
  exact (min_le_left _ _).trans (max_le (key i hi) ((inv i hi).trans (bl.H i hi)))

/-- **C152 (heads from below, partial).** Nothing flows, no water is withdrawn, no pipe end is above water: after a
step no head is below the lowest level before it. -/
theorem C152_no_lower_partial (c : m.Consistent) (st : StartTables m) (ps : PhysicalStep m geo inp)
    (cw : CleanWork m wk.mats) (he : m.end_method = .b) (bed : Bed m zI) (p : Pass m geo inp wk s s co x)
    (rs : AtRest m s) (cl : Calm m geo inp s) {T : ℝ} (ab : Above m zI T s) (no : NoneOut m inp T)
    (top : ∀ i, i < m.M → s.H i ≤ m.z_inv i + m.max_depth i) (i : ℕ) (hi : i < m.M) :
    T ≤ x i ∧ T ≤ (m.advance geo inp wk s co x).H i := by
  have key : ∀ i, i < m.M → T ≤ x i := by
    obtain ⟨j, hj, hjm⟩ := Finset.exists_min_image (Finset.range m.M) x ⟨i, Finset.mem_range.mpr hi⟩
    have hj := Finset.mem_range.mp hj
    have hjm : ∀ i, i < m.M → x j ≤ x i := fun i hi => hjm i (Finset.mem_range.mpr hi)
    suffices hs : T ≤ x j from fun i hi => hs.trans (hjm i hi)
    have sol := (solves_iff (m.net geo inp wk s co) inp.dt wk.mats cw.mats (wired c) s.H inp.Q_in
      (inp.H_bc.getD s.H) x).mp p.solve j hj
    cases hb : m.bc j with
    | true =>
      rw [sol.1 hb]
      cases hf : inp.H_bc with
      | none => exact ab.H j hj
      | some f => exact no.H_bc f hf j hj hb
    | false =>
      by_contra hT
      push Not at hT
      have bal := sol.2 hb
      unfold Network.Balanced at bal
      obtain ⟨o1, o2, o3⟩ := rest_controls (wk := wk) (co := co) rs cl.pumps x j
      rw [o1, o2, o3, add_zero, add_zero, add_zero] at bal
      have h1 : ((m.net geo inp wk s co).As j / inp.dt + (m.net geo inp wk s co).links.xiSum j) * (x j - s.H j) < 0 :=
        mul_neg_of_pos_of_neg (storage_pos ps hj hb) (by linarith [ab.H j hj])
      have h2 : 0 ≤ (m.net geo inp wk s co).links.inflow x j := by
        refine Finset.sum_nonneg fun k hk => ?_
        have hk : k < m.ix.NK := Finset.mem_range.mp hk
        obtain ⟨l1, l2⟩ := rest_link_lower (wk := wk) c st ps he p.coefs bed rs cl ab no hk (x (m.Ju k)) (x (m.Jd k))
        refine sub_nonneg.mpr (le_trans (b := 0) ?_ ?_)
        · split_ifs with e
          · have e : m.Ju k = j := e
            exact l1 (by rw [e]; exact hT.le) (by rw [e]; exact hjm _ (c.Jd k hk))
          · exact le_rfl
        · split_ifs with e
          · have e : m.Jd k = j := e
            exact l2 (by rw [e]; exact hT.le) (by rw [e]; exact hjm _ (c.Ju k hk))
          · exact le_rfl
      linarith [no.Q_in j hj]
  refine ⟨key i hi, ?_⟩
  show T ≤ min (max (x i) (m.z_inv i)) (m.z_inv i + m.max_depth i)
  exact le_min ((key i hi).trans (le_max_left _ _)) ((ab.H i hi).trans (top i hi))

/-- **C152 (surfaces, partial).** If moreover no limit was reached, the water surface in the pipes stays in the range
too. -/
theorem C152_surfaces_partial (c : m.Consistent) (st : StartTables m) (ps : PhysicalStep m geo inp)
    (cw : CleanWork m wk.mats) (he : m.end_method = .b) (bed : Bed m zI) (p : Pass m geo inp wk s s co x)
    (rs : AtRest m s) (cl : Calm m geo inp s)
    (uc : Unclipped m x (m.advance geo inp wk s co x)
      (endDepthU m geo wk s co (m.advance geo inp wk s co x).H)
      (endDepthD m geo wk s co (m.advance geo inp wk s co x).H)) :
    (∀ T, Below m zI T s → NoneIn m inp T → (∀ i, i < m.M → m.z_inv i ≤ s.H i) →
      Below m zI T (m.advance geo inp wk s co x)) ∧
    (∀ T, Above m zI T s → NoneOut m inp T → (∀ i, i < m.M → s.H i ≤ m.z_inv i + m.max_depth i) →
      Above m zI T (m.advance geo inp wk s co x)) := by
  have link : ∀ {k}, k < m.ix.NK → ∃ Q h, SaintVenant m.g (co.slice (m.ix.i_1k k) (m.ix.I_1k k)) (m.ix.nk k) Q h
        ((m.advance geo inp wk s co x).Qu k) ((m.advance geo inp wk s co x).Qd k) ∧
      h 0 + zI (m.ix.I_1k k) = (m.advance geo inp wk s co x).H (m.Ju k) ∧
      h (m.ix.nk k) + zI (m.ix.I_1k k + m.ix.nk k) = (m.advance geo inp wk s co x).H (m.Jd k) ∧
      ∀ j, j ≤ m.ix.nk k → h j = (m.advance geo inp wk s co x).h (m.ix.I_1k k + j) := by
    intro k hk
    have S := C01_step c ps p he uc hk
    obtain ⟨h0, hn⟩ := C04_reported_end_depths c uc hk
    have re := rest_ends (Q1 := (m.advance geo inp wk s co x).Qu k) (Q2 := (m.advance geo inp wk s co x).Qd k)
      (H1 := (m.advance geo inp wk s co x).H (m.Ju k)) (H2 := (m.advance geo inp wk s co x).H (m.Jd k)) rs cl bed hk
    exact ⟨_, _, S, (congrArg (· + _) h0).trans re.1, (congrArg (· + _) hn).trans re.2, fun _ _ => rfl⟩
  refine ⟨fun T bl ni inv => ?_, fun T ab no top => ?_⟩
  · have hH := fun i hi => (C152_no_higher_partial c st ps cw he bed p rs cl bl ni inv i hi).2
    refine ⟨hH, fun k hk j hj => ?_⟩
    obtain ⟨Q, h, S, e0, en, eh⟩ := link hk
    obtain ⟨ca, cc, cP, cN⟩ := rest_coefs c st ps bed p.coefs rs hk
    rw [← eh j hj]
    exact (rest_upper (d := fun j => s.h (m.ix.I_1k k + j)) (z := fun j => zI (m.ix.I_1k k + j)) (T := T)
      (c.layout.pos k hk) (physical c ps p.coefs hk) S ca cc cP
      (fun j hj => by rw [(cN j hj).2]; linarith [ni.Q_0 (m.ix.I_1k k + j)])
      (fun j h1 h2 => by rw [(cN j h2.le).1]; exact div_pos (cl.wide k hk j h1 h2) ps.dt_pos)
      (fun j hj => bl.h k hk j hj) e0 en).1 T le_rfl (hH _ (c.Ju k hk)) (hH _ (c.Jd k hk)) j hj
  · have hH := fun i hi => (C152_no_lower_partial c st ps cw he bed p rs cl ab no top i hi).2
    refine ⟨hH, fun k hk j hj => ?_⟩
    obtain ⟨Q, h, S, e0, en, eh⟩ := link hk
    obtain ⟨ca, cc, cP, cN⟩ := rest_coefs c st ps bed p.coefs rs hk
    rw [← eh j hj]
    exact (rest_lower (d := fun j => s.h (m.ix.I_1k k + j)) (z := fun j => zI (m.ix.I_1k k + j)) (T := T)
      (c.layout.pos k hk) (physical c ps p.coefs hk) S ca cc cP
      (fun j hj => by rw [(cN j hj).2]; linarith [no.Q_0 (m.ix.I_1k k + j)])
      (fun j h1 h2 => by rw [(cN j h2.le).1]; exact div_pos (cl.wide k hk j h1 h2) ps.dt_pos)
      (fun j hj => ab.h k hk j hj) e0 en).1 T le_rfl (hH _ (c.Ju k hk)) (hH _ (c.Jd k hk)) j hj

/-- **C152, refuted (pipe ends above water).** A pipe which comes from a fixed head and ends, full of water at rest,
above the water of a free superjunction not connected to anything else: in one step, of whatever size, at least all
the water of its last half link drops into the superjunction. -/
theorem C152_perched (c : m.Consistent) (st : StartTables m) (ps : PhysicalStep m geo inp)
    (cw : CleanWork m wk.mats) (he : m.end_method = .b) (bed : Bed m zI) (p : Pass m geo inp wk s s co x)
    (rs : AtRest m s)
    (off : ∀ p, p < m.n_p → (inp.u_p p = 0 ∧ (m.pump p).c ≠ 0) ∨ s.H (m.Jup p) ≤ (m.pump p).z_inv + (m.pump p).z_p)
    {k : ℕ} (hk : k < m.ix.NK) (dry : s.H (m.Jd k) < m.z_dk k) (hb : m.bc (m.Jd k) = false)
    (alone : ∀ k', k' < m.ix.NK → m.Ju k' ≠ m.Jd k ∧ (m.Jd k' = m.Jd k → k' = k))
    (hu : m.bc (m.Ju k) = true) (wet : m.z_uk k ≤ s.H (m.Ju k)) (hH : m.z_dk k ≤ (inp.H_bc.getD s.H) (m.Ju k))
    (full : ∀ j, j ≤ m.ix.nk k → m.z_dk k ≤ s.h (m.ix.I_1k k + j) + zI (m.ix.I_1k k + j))
    (wide : ∀ j, 1 ≤ j → j < m.ix.nk k → 0 < surfaceArea m geo k j)
    (lat : ∀ I, 0 ≤ inp.Q_0Ik I) (hq : 0 ≤ inp.Q_in (m.Jd k)) :
    s.H (m.Jd k) + surfaceArea m geo k (m.ix.nk k) * s.h (m.ix.I_1k k + m.ix.nk k) / geo.As (m.Jd k) ≤ x (m.Jd k) := by
  have n1 := c.layout.pos k hk
  have ph := physical c ps p.coefs hk
  have sol := solves_iff (m.net geo inp wk s co) inp.dt wk.mats cw.mats (wired c) s.H inp.Q_in (inp.H_bc.getD s.H) x
  have sol := sol.mp p.solve
  have xu : x (m.Ju k) = (inp.H_bc.getD s.H) (m.Ju k) := (sol _ (c.Ju k hk)).1 hu
  obtain ⟨Q, h, S, h0, hn⟩ := solution_exists (wk := wk) c ps he p.coefs hk (x (m.Ju k)) (x (m.Jd k))
  obtain ⟨ca, cc, cP, cN⟩ := rest_coefs c st ps bed p.coefs rs hk
  have D0 : DkStar (m.endRec wk co k) (m.headCoef geo s k) ≠ 0 :=
    ne_of_gt (lt_of_lt_of_le zero_lt_one (DkStar_ge_one (step_endSigns c ps p.coefs hk) (step_headSigns ps hk)))
  have er := C04_end_relations (m.endRec wk co k) (m.headCoef geo s k) (x (m.Ju k)) (x (m.Jd k)) D0
  have e0 : h 0 + zI (m.ix.I_1k k + 0) = x (m.Ju k) := by
    rw [h0, er.upstream, add_zero, bed.up k hk]
    simp [Model.headCoef, headCoefZ, theta, wet, gammaUk, rs.Qu k hk, safeDivide_eq]
  have z0 : h (m.ix.nk k) = 0 := by
    rw [hn, er.downstream]
    simp [Model.headCoef, headCoefZ, theta, not_le.mpr dry, gammaDk, rs.Qd k hk, safeDivide_eq]
  have en : h (m.ix.nk k) + zI (m.ix.I_1k k + m.ix.nk k) = m.z_dk k := by rw [z0, zero_add, bed.down k hk]
  have low := (rest_lower (d := fun j => s.h (m.ix.I_1k k + j)) (z := fun j => zI (m.ix.I_1k k + j)) (T := m.z_dk k)
    n1 ph S ca cc cP (fun j hj => by rw [(cN j hj).2]; linarith [lat (m.ix.I_1k k + j)])
    (fun j h1 h2 => by rw [(cN j h2.le).1]; exact div_pos (wide j h1 h2) ps.dt_pos)
    (fun j hj => full j hj) e0 en).1 (m.z_dk k) le_rfl (by rw [xu]; exact hH) le_rfl
  have qd : surfaceArea m geo k (m.ix.nk k) / inp.dt * s.h (m.ix.I_1k k + m.ix.nk k)
      ≤ Qdk (m.endRec wk co k) (m.headCoef geo s k) (x (m.Ju k)) (x (m.Jd k)) := by
    have cn := S.continuity (m.ix.nk k) le_rfl
    have qn : ∀ q, qIn Q q (m.ix.nk k) = Q (m.ix.nk k - 1) := fun q => by rw [qIn, if_neg (by omega)]
    rw [qOut_end, qn, z0, (cN _ le_rfl).2, (cN _ le_rfl).1, mul_zero, add_zero] at cn
    have hl : m.ix.nk k - 1 < m.ix.nk k := by omega
    have e1 : m.ix.nk k - 1 + 1 = m.ix.nk k := by omega
    have mo := S.momentum _ hl
    rw [ca _ hl, cc _ hl, cP _ hl, e1, zero_mul, zero_mul, zero_add, add_zero] at mo
    have b0 := ph.abc_pos _ hl
    rw [ca _ hl, cc _ hl, zero_add, add_zero] at b0
    have lo := low (m.ix.nk k - 1) hl.le
    have h1 := mul_nonneg (mul_pos ph.g_pos (ph.A_pos _ hl)).le (sub_nonneg.mpr lo)
    have h2 : 0 ≤ (co.slice (m.ix.i_1k k) (m.ix.I_1k k)).b (m.ix.nk k - 1) * Q (m.ix.nk k - 1) := by
      rw [mo]
      refine h1.trans (le_of_eq ?_)
      rw [← en]; ring
    have h3 := nonneg_of_mul_nonneg_right h2 b0
    linarith [lat (m.ix.I_1k k + m.ix.nk k)]
  have bal := (sol _ (c.Jd k hk)).2 hb
  unfold Network.Balanced at bal
  obtain ⟨o1, o2, o3⟩ := rest_controls (wk := wk) (co := co) rs off x (m.Jd k)
  rw [o1, o2, o3, add_zero, add_zero, add_zero] at bal
  have inflow : (m.net geo inp wk s co).links.inflow x (m.Jd k)
      = Qdk (m.endRec wk co k) (m.headCoef geo s k) (x (m.Ju k)) (x (m.Jd k)) := by
    unfold Links.inflow
    rw [Finset.sum_eq_single k]
    · have a1 : (m.net geo inp wk s co).links.Ju k ≠ m.Jd k := (alone k hk).1
      have a2 : (m.net geo inp wk s co).links.Jd k = m.Jd k := rfl
      rw [if_neg a1, if_pos a2, sub_zero]
      rfl
    · intro k' hk' hne
      have hk' : k' < m.ix.NK := Finset.mem_range.mp hk'
      have a1 : (m.net geo inp wk s co).links.Ju k' ≠ m.Jd k := (alone k' hk').1
      have a2 : (m.net geo inp wk s co).links.Jd k' ≠ m.Jd k := fun h => hne ((alone k' hk').2 h)
      rw [if_neg a1, if_neg a2, sub_zero]
    · intro h; exact absurd (Finset.mem_range.mpr hk) h
  have xi0 : (m.net geo inp wk s co).links.xiSum (m.Jd k) = 0 := by
    refine Finset.sum_eq_zero fun k' hk' => ?_
    have hk' : k' < m.ix.NK := Finset.mem_range.mp hk'
    have a1 : (m.net geo inp wk s co).links.Ju k' ≠ m.Jd k := (alone k' hk').1
    rw [if_neg a1, zero_add]
    by_cases a2 : (m.net geo inp wk s co).links.Jd k' = m.Jd k
    · rw [if_pos a2]
      have : k' = k := (alone k' hk').2 a2
      subst this
      show xi (m.dx_dk k') (geo.B_d k') (theta (s.H (m.Jd k')) (m.z_dk k')) inp.dt = 0
      simp [theta, not_le.mpr dry, xi]
    · rw [if_neg a2]
  rw [inflow, xi0, add_zero] at bal
  have As0 := ps.As _ (c.Jd k hk) hb
  have dt0 := ps.dt_pos
  have b2 : geo.As (m.Jd k) / inp.dt * (x (m.Jd k) - s.H (m.Jd k)) = inp.Q_in (m.Jd k)
      + Qdk (m.endRec wk co k) (m.headCoef geo s k) (x (m.Ju k)) (x (m.Jd k)) := bal
  have b3 : surfaceArea m geo k (m.ix.nk k) / inp.dt * s.h (m.ix.I_1k k + m.ix.nk k)
      ≤ geo.As (m.Jd k) / inp.dt * (x (m.Jd k) - s.H (m.Jd k)) := by rw [b2]; linarith
  rw [div_mul_eq_mul_div, div_mul_eq_mul_div, div_le_div_iff_of_pos_right dt0] at b3
  rw [← le_sub_iff_add_le', div_le_iff₀ As0]
  linarith

/-! ### Examples -/

/-- A channel of 10 m from a fixed head to a superjunction of area 1, with bed level 1. -/
def perModel : Model := { inModel false with bc := fun i => i == 0, z_uk := fun _ => 1, z_dk := fun _ => 1 }

/-- Head 2 at the upper end, depth 1 in the channel, depth `1/2` in the superjunction at the lower end; no flow. -/
def perGiven : Given := ⟨fun j => if j = 0 then 2 else 1 / 2, fun _ => 1, fun _ => 0, fun _ => 0⟩

theorem perConsistent : perModel.Consistent := by
  refine ⟨⟨fun _ _ => ?_, fun k k' h h' hk => ?_, fun k k' h h' hk => ?_⟩, ?_, fun k hk => ⟨?_, ?_, ?_, ?_, ?_⟩,
    ?_, ?_, ?_, ?_, ?_, ?_, ?_, ?_⟩ <;> simp [perModel, inModel, reModel] at * <;> try omega

theorem perSound : Sound perModel inPlan := by
  refine ⟨perConsistent, ?_, ?_, ?_, ?_, ?_, ?_, ?_, ?_, ?_, ?_, ?_, ?_, ?_, ?_, ?_, ?_⟩
  all_goals first
    | (intros; simp [perModel, inModel, inPlan, reModel, rePlan, Section.Usable, Geometry.Wettable, Geometry.Valid, Storage.Usable]; done)
    | (norm_num [perModel, inModel, inPlan, reModel, rePlan, Section.Usable, Geometry.Wettable, Geometry.Valid, Storage.Usable])

theorem perTables : StartTables perModel := by
  refine ⟨fun k hk j hj => ?_, fun k hk j hj => ?_⟩ <;> simp [perModel, inModel, reModel] at *

theorem perBed : Bed perModel fun _ => 1 := by
  refine ⟨?_, ?_, ?_⟩ <;> norm_num [perModel, inModel, reModel]

/-- **C152, refuted (already by constructing the model).** No given level is above 2 m, nothing flows; in the model
which the constructor returns the lower superjunction stands at 5.5 m or more. -/
theorem C152_constructed : AtRest perModel (perModel.start perGiven) ∧ Below perModel (fun _ => 1) 2 (perModel.start perGiven) ∧
    ∃ o, Built perModel inPlan perGiven o ∧ 11 / 2 ≤ o.cur.H 1 := by
  have rs : AtRest perModel (perModel.start perGiven) := by
    refine ⟨?_, ?_, ?_, ?_, ?_⟩ <;> intros <;> rfl
  have bl : Below perModel (fun _ => 1) 2 (perModel.start perGiven) := by
    refine ⟨fun i _ => ?_, fun k _ j _ => ?_⟩
    · by_cases h : i = 0 <;> norm_num [perModel, inModel, reModel, perGiven, Model.start, h]
    · norm_num [perModel, inModel, reModel, perGiven, Model.start]
  refine ⟨rs, bl, ?_⟩
  have wet : ∀ I, perModel.min_depth ≤ perGiven.hJ I := fun _ => by norm_num [perModel, inModel, reModel, perGiven]
  have nr : NoRound perModel inPlan := fun a ha => by simp [perModel, inModel, reModel] at ha
  obtain ⟨o, hb, -, -⟩ := C147_builds (gv := perGiven) perSound nr wet
  refine ⟨o, hb, ?_⟩
  obtain ⟨Ao, co, x, p, e⟩ := built_pass hb
  have ps := physical_geoOf perSound (hiddenGood nr) (Hidden.fresh perGiven.Ao) Ao (s := perModel.start perGiven) wet
  have key := C152_perched perConsistent perTables ps (freshClean perModel) rfl perBed p rs
    (fun q hq => by simp [perModel, inModel, reModel] at hq) (k := 0) (by norm_num [perModel, inModel, reModel])
    (by norm_num [perModel, inModel, reModel, perGiven, Model.start]) (by simp [perModel, inModel, reModel])
    (fun k' hk' => by simp [perModel, inModel, reModel] at hk' ⊢; exact hk')
    (by simp [perModel, inModel, reModel]) (by norm_num [perModel, inModel, reModel, perGiven, Model.start])
    (by norm_num [perModel, inModel, reModel, perGiven, Model.start, hiddenInputs])
    (fun j _ => by norm_num [perModel, inModel, reModel, perGiven, Model.start])
    (fun j h1 h2 => by simp [perModel, inModel, reModel] at h2; omega) (fun _ => le_rfl) le_rfl
  rw [e]
  show 11 / 2 ≤ min (max (x 1) 0) (0 + 10)
  have sa : surfaceArea perModel (perModel.geoOf inPlan (Hidden.fresh perGiven.Ao) Ao (perModel.start perGiven)) 0 1 = 5 := by
    norm_num [surfaceArea, perModel, inModel, reModel, Model.geoOf, inPlan, rePlan, Section.B, Geometry.topWidth, Geometry.rectOpenB]
  have as : (perModel.geoOf inPlan (Hidden.fresh perGiven.Ao) Ao (perModel.start perGiven)).As 1 = 1 := by
    simp only [Model.geoOf]
    rw [upTo_of_lt _ (by norm_num [perModel, inModel, reModel])]
    norm_num [inPlan, rePlan, Storage.A, Interp.functionalArea, Interp.storageDepth, perModel, inModel, reModel]
  have k1 : (perModel.start perGiven).H 1 = 1 / 2 := by
    norm_num [perModel, inModel, reModel, perGiven, Model.start]
  have k2 : 1 / 2 + 5 * 1 / 1 ≤ x 1 := by
    have h : (perModel.start perGiven).H 1 + surfaceArea perModel
      (perModel.geoOf inPlan (Hidden.fresh perGiven.Ao) Ao (perModel.start perGiven)) 0 1 * 1
      / (perModel.geoOf inPlan (Hidden.fresh perGiven.Ao) Ao (perModel.start perGiven)).As 1 ≤ x 1 := key
    rwa [sa, as, k1] at h
  refine le_min ((by linarith : (11 : ℝ) / 2 ≤ x 1).trans (le_max_left _ _)) (by norm_num)

/-- Two superjunctions at 2 m and 1 m, joined by a channel with 1 m of water at rest: after a step of one second both
heads, and any head reported, are between 1 m and 2 m. -/
example : ∃ o', Calls1 (inModel false) inPlan true (reInp 1)
      ((inModel false).blank ⟨fun j => if j = 0 then 2 else 1, fun _ => 1, fun _ => 0, fun _ => 0⟩) o' ∧
    ∀ i, i < 2 → 1 ≤ o'.cur.H i ∧ o'.cur.H i ≤ 2 := by
  set gv : Given := ⟨fun j => if j = 0 then 2 else 1, fun _ => 1, fun _ => 0, fun _ => 0⟩ with hgv
  have gi : GoodInputs (inModel false) inPlan (reInp 1) :=
    ⟨(reGood 1).dt_pos, fun p hp => by simp [inModel, reModel] at hp, fun a ha => by simp [inModel, reModel] at ha⟩
  have wet : ∀ I, (inModel false).min_depth ≤ gv.hJ I := fun _ => by norm_num [inModel, reModel, hgv]
  obtain ⟨o', Ao, co, x, ho, p, e⟩ := C105_step_succeeds (inSound false) gi true (blankGood wet)
  have ps := physical_geoOf (inSound false) gi ((inModel false).blank gv).hid Ao (s := ((inModel false).blank gv).cur) wet
  have hs : ((inModel false).blank gv).cur = (inModel false).start gv := rfl
  have hH : ∀ i, ((inModel false).start gv).H i = if i = 0 then 2 else 1 := by
    intro i; by_cases h : i = 0 <;> norm_num [Model.start, inModel, reModel, hgv, h]
  have bed : Bed (inModel false) fun _ => 0 := by
    refine ⟨?_, ?_, ?_⟩ <;> norm_num [inModel, reModel]
  have rs : AtRest (inModel false) ((inModel false).blank gv).cur := by
    refine ⟨?_, ?_, ?_, ?_, ?_⟩ <;> intros <;> rfl
  have cl : Calm (inModel false)
      ((inModel false).geoOf inPlan ((inModel false).blank gv).hid Ao ((inModel false).blank gv).cur) (reInp 1)
      ((inModel false).blank gv).cur := by
    refine ⟨fun k _ => ?_, fun k _ => ?_, fun q hq => ?_, fun k hk j h1 h2 => ?_⟩
    · rw [hs, hH]; norm_num [inModel, reModel]
    · rw [hs, hH]; norm_num [inModel, reModel]
    · simp [inModel, reModel] at hq
    · simp [inModel, reModel] at h2; omega
  have hi : ∀ i, ((inModel false).blank gv).cur.H i ≤ 2 ∧ 1 ≤ ((inModel false).blank gv).cur.H i := by
    intro i; rw [hs, hH]; by_cases h : i = 0 <;> norm_num [h]
  refine ⟨o', ⟨Ao, co, x, ho, p, e⟩, fun i hi' => ?_⟩
  rw [e]
  refine ⟨(C152_no_lower_partial (inConsistent false) (inTables false) ps (freshClean _) rfl bed p rs cl (T := 1)
      ⟨fun i _ => (hi i).2, fun k _ j _ => ?_⟩ ⟨fun _ _ => le_rfl, fun _ => le_rfl, fun f hf i _ hb => ?_⟩
      (fun i _ => ?_) i hi').2,
    (C152_no_higher_partial (inConsistent false) (inTables false) ps (freshClean _) rfl bed p rs cl (T := 2)
      ⟨fun i _ => (hi i).1, fun k _ j _ => ?_⟩ ⟨fun _ _ => le_rfl, fun _ => le_rfl, fun f hf i _ hb => ?_⟩
      (fun i _ => ?_) i hi').2⟩
  · rw [hs]; norm_num [Model.start, hgv]
  · simp [inModel, reModel] at hb
  · refine (hi i).1.trans ?_; norm_num [inModel, reModel]
  · rw [hs]; norm_num [Model.start, hgv]
  · simp [inModel, reModel] at hb
  · refine le_trans ?_ (hi i).2; norm_num [inModel, reModel]

end

end Pipedream.Step
