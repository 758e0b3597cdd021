import Verif.SuperlinkModel

/-!
# Properties of the superlink end relations: C04, C05, C19, and C01 with the reported end flows
-/

namespace Pipedream.Superlink

open Pipedream.Sweep

variable {K : Type*} [Field K] [LinearOrder K] [IsStrictOrderedRing K]

/-! ### C04 -/

/-- The four relations between end flows and end depths (specification). -/
structure EndRelations (r : EndRec K) (hc : HeadCoef K) (Hu Hd Qu Qd hu hd : K) : Prop where
  backward : Qu = r.X * hu + r.Y + r.Z * hd
  forward : Qd = r.U * hd + r.V + r.W * hu
  upstream : hu = hc.kappa_u * Qu + hc.lam_u * Hu + hc.mu_u
  downstream : hd = hc.kappa_d * Qd + hc.lam_d * Hd + hc.mu_d

omit [IsStrictOrderedRing K] in
/-- **C04.** The reported end flows and end depths satisfy the backward relation, the forward relation
and both end-head relations, for all heads, provided the 2×2 determinant is not zero. -/
theorem C04_end_relations (r : EndRec K) (hc : HeadCoef K) (Hu Hd : K) (hD : DkStar r hc ≠ 0) :
    EndRelations r hc Hu Hd (Quk r hc Hu Hd) (Qdk r hc Hu Hd) (huk r hc Hu Hd) (hdk r hc Hu Hd) := by
  refine ⟨?_, ?_, rfl, rfl⟩
  · simp only [huk, hdk, Quk, Qdk, alphaUk, betaUk, chiUk, alphaDk, betaDk, chiDk, safeDivide_eq]
    field_simp
    simp only [DkStar]
    ring
  · simp only [huk, hdk, Quk, Qdk, alphaUk, betaUk, chiUk, alphaDk, betaDk, chiDk, safeDivide_eq]
    field_simp
    simp only [DkStar]
    ring

omit [IsStrictOrderedRing K] in
/-- **C04 (uniqueness).** They are the only values that do. -/
theorem C04_end_relations_unique (r : EndRec K) (hc : HeadCoef K) (Hu Hd Qu Qd hu hd : K)
    (hD : DkStar r hc ≠ 0) (R : EndRelations r hc Hu Hd Qu Qd hu hd) :
    Qu = Quk r hc Hu Hd ∧ Qd = Qdk r hc Hu Hd ∧ hu = huk r hc Hu Hd ∧ hd = hdk r hc Hu Hd := by
  obtain ⟨b, f, u, d⟩ := R
  obtain ⟨b', f', u', d'⟩ := C04_end_relations r hc Hu Hd hD
  set Qu' := Quk r hc Hu Hd
  set Qd' := Qdk r hc Hu Hd
  set hu' := huk r hc Hu Hd
  set hd' := hdk r hc Hu Hd
  -- differences solve the homogeneous 2×2 system
  have e1 : (r.X * hc.kappa_u - 1) * (Qu - Qu') + r.Z * hc.kappa_d * (Qd - Qd') = 0 := by
    rw [u, d] at b; rw [u', d'] at b'
    linear_combination b' - b
  have e2 : r.W * hc.kappa_u * (Qu - Qu') + (r.U * hc.kappa_d - 1) * (Qd - Qd') = 0 := by
    rw [u, d] at f; rw [u', d'] at f'
    linear_combination f' - f
  have z1 : DkStar r hc * (Qu - Qu') = 0 := by
    simp only [DkStar]
    linear_combination (r.U * hc.kappa_d - 1) * e1 - r.Z * hc.kappa_d * e2
  have z2 : DkStar r hc * (Qd - Qd') = 0 := by
    simp only [DkStar]
    linear_combination (r.X * hc.kappa_u - 1) * e2 - r.W * hc.kappa_u * e1
  have q1 := sub_eq_zero.mp ((mul_eq_zero.mp z1).resolve_left hD)
  have q2 := sub_eq_zero.mp ((mul_eq_zero.mp z2).resolve_left hD)
  exact ⟨q1, q2, by rw [u, u', q1], by rw [d, d', q2]⟩

/-! ### Comparison of the two ends (maximum principle) -/

/-- The coefficients with sources removed. -/
def homog (co : Coef K) : Coef K := { co with P := fun _ => 0, D := fun _ => 0 }

omit [IsStrictOrderedRing K] in
theorem homog_fwd {g : K} {co : Coef K} {n : ℕ} {T U V W : ℕ → K} (R : FwdRel g co n T U V W) :
    FwdRel g (homog co) n T U (fun _ => 0) W := by
  refine ⟨R.T0, R.U0, ?_, R.W0, R.Ts, R.Us, ?_, R.Ws⟩
  · simp [V_1k, homog, safeDivide]
  · intro j hj; simp [V_Ik, homog, safeDivide]

omit [IsStrictOrderedRing K] in
theorem homog_bwd {g : K} {co : Coef K} {n : ℕ} {O X Y Z : ℕ → K} (R : BwdRel g co n O X Y Z) :
    BwdRel g (homog co) n O X (fun _ => 0) Z := by
  refine ⟨R.On, R.Xn, ?_, R.Zn, R.Os, R.Xs, ?_, R.Zs⟩
  · simp [Y_Nk, homog, safeDivide]
  · intro j h1 hj; simp [Y_Ik, homog, safeDivide]

omit [LinearOrder K] [IsStrictOrderedRing K] in
/-- Sum of the interior continuity equations. -/
theorem interior_sum {g : K} {co : Coef K} {n : ℕ} {Q h : ℕ → K} {Qu Qd : K}
    (S : SaintVenant g co n Q h Qu Qd) (m : ℕ) (hm : m + 1 ≤ n) :
    Q 0 - Q m = ∑ j ∈ Finset.range m, (co.E (j+1) * h (j+1) - co.D (j+1)) := by
  induction m with
  | zero => simp
  | succ m ih =>
    rw [Finset.sum_range_succ, ← ih (by omega)]
    have c := S.continuity (m+1) (by omega)
    rw [qIn_succ, qOut_lt _ _ (by omega)] at c
    linear_combination -c

theorem end_compare {g : K} {co : Coef K} {n : ℕ} {T U V W O X Y Z : ℕ → K} (hn : 1 ≤ n)
    (ph : Physical g co n) (F : FwdRel g co n T U V W) (B : BwdRel g co n O X Y Z) :
    W (n-1) ≤ X 0 ∧ U (n-1) ≤ Z 0 := by
  have F0 := homog_fwd F
  have B0 := homog_bwd B
  have ph0 : Physical g (homog co) n := ⟨ph.g_pos, ph.A_pos, ph.a_nonpos, ph.c_nonpos, ph.abc_pos, ph.E_nonneg⟩
  have fp := physical_fwdPivots ph0 F0
  have bp := physical_bwdPivots ph0 B0
  have fsg := fwd_signs ph0 F0
  have bsg := bwd_signs ph0 B0
  -- depths of the homogeneous problem are non-negative
  have key : ∀ hu hd : K, 0 ≤ hu → 0 ≤ hd → ∀ Q h Qu Qd, SaintVenant g (homog co) n Q h Qu Qd →
      h 0 = hu → h n = hd → 0 ≤ Q 0 - Q (n-1) := by
    intro hu hd hu0 hd0 Q h Qu Qd S e0 en
    have fs := fwd_sound F0 fp S
    have bs := bwd_sound B0 bp S
    have hpos : ∀ j, j + 1 < n → 0 ≤ h (j+1) := by
      intro j hj
      have c := S.continuity (j+1) hj.le
      rw [qIn_succ, qOut_lt _ _ hj] at c
      have q0 := fs j (by omega)
      have q1 := bs (j+1) hj
      have hD : (homog co).D (j+1) = 0 := rfl
      have hE := ph0.E_nonneg (j+1) (by omega)
      have hU := (fsg j (by omega)).2.2.1
      have hX := (bsg (j+1) hj).2.2.1
      have hW := (fsg j (by omega)).2.2.2
      have hZ := (bsg (j+1) hj).2.2.2
      have e : (X (j+1) + (homog co).E (j+1) - U j) * h (j+1) = W j * hu - Z (j+1) * hd := by
        rw [hD] at c
        rw [e0] at q0; rw [en] at q1
        linear_combination c - q1 + q0
      have hp : 0 < X (j+1) + (homog co).E (j+1) - U j := by linarith
      have hr : 0 ≤ W j * hu - Z (j+1) * hd := by
        have := mul_nonneg hW.le hu0
        have := mul_nonneg (neg_nonneg.mpr hZ.le) hd0
        linarith
      by_contra hneg
      push Not at hneg
      have := mul_neg_of_pos_of_neg hp hneg
      linarith
    rw [interior_sum S (n-1) (by omega)]
    apply Finset.sum_nonneg
    intro j hj
    have hj' : j + 1 < n := by have := Finset.mem_range.mp hj; omega
    have hD : (homog co).D (j+1) = 0 := rfl
    rw [hD, sub_zero]
    exact mul_nonneg (ph0.E_nonneg _ (by omega)) (hpos j hj')
  have n1 : n - 1 < n := by omega
  have en1 : n - 1 + 1 = n := by omega
  constructor
  · obtain ⟨Q, h, Qu, Qd, S, e0, en⟩ := exists_solution hn F0 fp 1 0
    have k := key 1 0 zero_le_one le_rfl Q h Qu Qd S e0 en
    have q0 := bwd_sound B0 bp S 0 hn
    have q1 := fwd_sound F0 fp S (n-1) n1
    rw [en1, e0, en] at q1; rw [e0, en] at q0
    rw [q0, q1] at k
    linarith
  · obtain ⟨Q, h, Qu, Qd, S, e0, en⟩ := exists_solution hn F0 fp 0 1
    have k := key 0 1 le_rfl zero_le_one Q h Qu Qd S e0 en
    have q0 := bwd_sound B0 bp S 0 hn
    have q1 := fwd_sound F0 fp S (n-1) n1
    rw [en1, e0, en] at q1; rw [e0, en] at q0
    rw [q0, q1] at k
    linarith

/-- Sign structure of the end coefficients. -/
structure EndSigns (r : EndRec K) : Prop where
  W_pos : 0 < r.W
  X_ge : r.W ≤ r.X
  Z_neg : r.Z < 0
  U_le : r.U ≤ r.Z

theorem endSigns {g : K} {co : Coef K} {n : ℕ} {T U V W O X Y Z : ℕ → K} (hn : 1 ≤ n)
    (ph : Physical g co n) (F : FwdRel g co n T U V W) (B : BwdRel g co n O X Y Z) (m : EndMethod) :
    EndSigns (endRec m co n U V W X Y Z) := by
  obtain ⟨h1, h2⟩ := end_compare hn ph F B
  have hW := (fwd_signs ph F (n-1) (by omega)).2.2.2
  have hZ := (bwd_signs ph B 0 (by omega)).2.2.2
  have e0 := ph.E_nonneg 0 (by omega)
  have en := ph.E_nonneg n le_rfl
  cases m
  · exact ⟨hW, h1, hZ, h2⟩
  · refine ⟨hW, ?_, hZ, ?_⟩
    · show W (n-1) ≤ X 0 + co.E 0; linarith
    · show U (n-1) - co.E n ≤ Z 0; linarith

/-- The head coefficients of the default method have these signs: end losses never raise the depth
they feed, `λ ∈ {0,1}`. -/
structure HeadSigns (hc : HeadCoef K) : Prop where
  ku : hc.kappa_u ≤ 0
  kd : 0 ≤ hc.kappa_d
  lu : 0 ≤ hc.lam_u
  ld : 0 ≤ hc.lam_d

theorem headCoefZ_signs {g Hu Hd Qu Qd C_u C_d A_u A_d z_u z_d : K} (hg : 0 < g) (hCu : 0 ≤ C_u)
    (hCd : 0 ≤ C_d) : HeadSigns (headCoefZ g Hu Hd Qu Qd C_u C_d A_u A_d z_u z_d) := by
  refine ⟨?_, ?_, ?_, ?_⟩
  · simp only [headCoefZ, gammaUk, safeDivide_eq]
    apply div_nonpos_of_nonpos_of_nonneg
    · have := mul_nonneg (abs_nonneg Qu) hCu; linarith
    · positivity
  · simp only [headCoefZ, gammaDk, safeDivide_eq]
    apply div_nonneg
    · exact mul_nonneg (abs_nonneg Qd) hCd
    · positivity
  · simp only [headCoefZ, theta]; split_ifs <;> norm_num
  · simp only [headCoefZ, theta]; split_ifs <;> norm_num

theorem DkStar_ge_one {r : EndRec K} {hc : HeadCoef K} (rs : EndSigns r) (hs : HeadSigns hc) :
    1 ≤ DkStar r hc := by
  obtain ⟨w, x, z, u⟩ := rs
  have hku := hs.ku
  have hkd := hs.kd
  have hX : 0 < r.X := by linarith
  have hU : r.U < 0 := by linarith
  have h1 : 0 ≤ -(r.X * hc.kappa_u) := by nlinarith
  have h2 : 0 ≤ -(r.U * hc.kappa_d) := by nlinarith
  have h3 : r.X * r.U - r.Z * r.W ≤ 0 := by
    have := mul_le_mul x (neg_le_neg u) (by linarith) hX.le
    linarith
  have h4 : hc.kappa_u * hc.kappa_d ≤ 0 := mul_nonpos_of_nonpos_of_nonneg hku hkd
  have h5 : 0 ≤ (hc.kappa_u * hc.kappa_d) * (r.X * r.U - r.Z * r.W) := mul_nonneg_of_nonpos_of_nonpos h4 h3
  have e : DkStar r hc = 1 + -(r.X * hc.kappa_u) + -(r.U * hc.kappa_d)
      + (hc.kappa_u * hc.kappa_d) * (r.X * r.U - r.Z * r.W) := by
    simp only [DkStar]; ring
  rw [e]; linarith

/-- **C05.** For physical coefficients and the default end-head method, for every superlink of any
length, either end method, any heads, flows (of either sign) and end areas (even zero), the determinant
used to eliminate the end depths is at least 1. -/
theorem C05_determinant_ge_one (g : K) (co : Coef K) (ix : Idx) (f0 : Fwd K) (b0 : Bwd K)
    (L : Layout ix.NK ix.nk ix.I_1k ix.i_1k) {k : ℕ} (hk : k < ix.NK)
    (ph : Physical g (co.slice (ix.i_1k k) (ix.I_1k k)) (ix.nk k)) (m : EndMethod)
    {Hu Hd Qu Qd C_u C_d A_u A_d z_u z_d : K} (hCu : 0 ≤ C_u) (hCd : 0 ≤ C_d) :
    let f := sweptFwd g co ix f0
    let bw := sweptBwd g co ix b0
    1 ≤ DkStar (endRec m (co.slice (ix.i_1k k) (ix.I_1k k)) (ix.nk k)
        (fun j => f.U (ix.I_1k k + j)) (fun j => f.V (ix.I_1k k + j)) (fun j => f.W (ix.I_1k k + j))
        (fun j => bw.X (ix.I_1k k + j)) (fun j => bw.Y (ix.I_1k k + j)) (fun j => bw.Z (ix.I_1k k + j)))
      (headCoefZ g Hu Hd Qu Qd C_u C_d A_u A_d z_u z_d) :=
  DkStar_ge_one (endSigns (L.pos k hk) ph (sweptFwd_rel g co ix f0 L hk) (sweptBwd_rel g co ix b0 L hk) m)
    (headCoefZ_signs ph.g_pos hCu hCd)

/-! ### C19 -/

/-- Sign structure of the end-flow coefficients. -/
structure FlowSigns (r : EndRec K) (hc : HeadCoef K) : Prop where
  alpha_dk : 0 ≤ alphaDk r hc
  alpha_uk : alphaDk r hc ≤ alphaUk r hc
  beta_uk : betaUk r hc ≤ 0
  beta_dk : betaDk r hc ≤ betaUk r hc

theorem flowSigns {r : EndRec K} {hc : HeadCoef K} (rs : EndSigns r) (hs : HeadSigns hc) :
    FlowSigns r hc := by
  have hD := DkStar_ge_one rs hs
  have hDp : 0 < DkStar r hc := lt_of_lt_of_le zero_lt_one hD
  obtain ⟨w, x, z, u⟩ := rs
  have hku := hs.ku
  have hkd := hs.kd
  have hX : 0 < r.X := by linarith
  have h3 : 0 ≤ r.Z * r.W - r.X * r.U := by
    have := mul_le_mul x (neg_le_neg u) (by linarith) hX.le
    linarith
  have h4 : 0 ≤ hc.kappa_d * (r.Z * r.W - r.X * r.U) := mul_nonneg hkd h3
  have h5 : hc.kappa_u * (r.Z * r.W - r.X * r.U) ≤ 0 := mul_nonpos_of_nonpos_of_nonneg hku h3
  refine ⟨?_, ?_, ?_, ?_⟩
  · simp only [alphaDk, safeDivide_eq]
    apply div_nonneg _ hDp.le
    have : (1 - r.X * hc.kappa_u) * r.W + r.W * hc.kappa_u * r.X = r.W := by ring
    rw [this]; exact mul_nonneg hs.lu w.le
  · simp only [alphaDk, alphaUk, safeDivide_eq]
    apply div_le_div_of_nonneg_right _ hDp.le
    apply mul_le_mul_of_nonneg_left _ hs.lu
    nlinarith
  · simp only [betaUk, safeDivide_eq]
    apply div_nonpos_of_nonpos_of_nonneg _ hDp.le
    have : (1 - r.U * hc.kappa_d) * r.Z + r.Z * hc.kappa_d * r.U = r.Z := by ring
    rw [this]; exact mul_nonpos_of_nonneg_of_nonpos hs.ld z.le
  · simp only [betaDk, betaUk, safeDivide_eq]
    apply div_le_div_of_nonneg_right _ hDp.le
    apply mul_le_mul_of_nonneg_left _ hs.ld
    nlinarith

/-- **C19.** Raising the upstream head never decreases either end flow, raising the downstream head
never increases either; the inflow reacts to the upstream head at least as much as the outflow, and
the outflow reacts to the downstream head at least as much as the inflow. -/
theorem C19_flow_monotone_in_heads {r : EndRec K} {hc : HeadCoef K} (rs : EndSigns r)
    (hs : HeadSigns hc) {Hu Hu' Hd Hd' : K} (hu : Hu ≤ Hu') (hd : Hd ≤ Hd') :
    Quk r hc Hu Hd ≤ Quk r hc Hu' Hd ∧ Qdk r hc Hu Hd ≤ Qdk r hc Hu' Hd ∧
    Quk r hc Hu Hd' ≤ Quk r hc Hu Hd ∧ Qdk r hc Hu Hd' ≤ Qdk r hc Hu Hd ∧
    Qdk r hc Hu' Hd - Qdk r hc Hu Hd ≤ Quk r hc Hu' Hd - Quk r hc Hu Hd ∧
    Quk r hc Hu Hd - Quk r hc Hu Hd' ≤ Qdk r hc Hu Hd - Qdk r hc Hu Hd' := by
  obtain ⟨a1, a2, b1, b2⟩ := flowSigns rs hs
  simp only [Quk, Qdk]
  refine ⟨?_, ?_, ?_, ?_, ?_, ?_⟩ <;> nlinarith

/-- **C19 (as computed in a step).** The hypotheses of `C19_flow_monotone_in_heads` hold for the
coefficients of every physical superlink with the default head method. -/
theorem C19_step (g : K) (co : Coef K) (ix : Idx) (f0 : Fwd K) (b0 : Bwd K)
    (L : Layout ix.NK ix.nk ix.I_1k ix.i_1k) {k : ℕ} (hk : k < ix.NK)
    (ph : Physical g (co.slice (ix.i_1k k) (ix.I_1k k)) (ix.nk k)) (m : EndMethod)
    {Hu0 Hd0 Qu Qd C_u C_d A_u A_d z_u z_d : K} (hCu : 0 ≤ C_u) (hCd : 0 ≤ C_d)
    {Hu Hu' Hd Hd' : K} (hu : Hu ≤ Hu') (hd : Hd ≤ Hd') :
    let f := sweptFwd g co ix f0
    let bw := sweptBwd g co ix b0
    let r := endRec m (co.slice (ix.i_1k k) (ix.I_1k k)) (ix.nk k)
        (fun j => f.U (ix.I_1k k + j)) (fun j => f.V (ix.I_1k k + j)) (fun j => f.W (ix.I_1k k + j))
        (fun j => bw.X (ix.I_1k k + j)) (fun j => bw.Y (ix.I_1k k + j)) (fun j => bw.Z (ix.I_1k k + j))
    let hc := headCoefZ g Hu0 Hd0 Qu Qd C_u C_d A_u A_d z_u z_d
    Quk r hc Hu Hd ≤ Quk r hc Hu' Hd ∧ Qdk r hc Hu Hd ≤ Qdk r hc Hu' Hd ∧
    Quk r hc Hu Hd' ≤ Quk r hc Hu Hd ∧ Qdk r hc Hu Hd' ≤ Qdk r hc Hu Hd ∧
    Qdk r hc Hu' Hd - Qdk r hc Hu Hd ≤ Quk r hc Hu' Hd - Quk r hc Hu Hd ∧
    Quk r hc Hu Hd - Quk r hc Hu Hd' ≤ Qdk r hc Hu Hd - Qdk r hc Hu Hd' := by
  intro f bw r hc
  exact C19_flow_monotone_in_heads
    (endSigns (L.pos k hk) ph (sweptFwd_rel g co ix f0 L hk) (sweptBwd_rel g co ix b0 L hk) m)
    (headCoefZ_signs ph.g_pos hCu hCd) hu hd

/-! ### C01 with the reported end flows -/

/-- **C01 (whole superlink).** Let the end flows and end depths be the ones the code reports for heads
`Hu`, `Hd`, and let the internal solve run from those end depths. If no depth is clipped, the reported
internal flows and depths *together with the reported end flows* satisfy all momentum equations and all
continuity equations, including those of the two end junctions (default end method). -/
theorem C01_with_end_flows (g : K) (co : Coef K) (ix : Idx) (mn : K) (mx : ℕ → K) (back : Bool)
    (f0 : Fwd K) (b0 : Bwd K) (s0 : HQ K) (L : Layout ix.NK ix.nk ix.I_1k ix.i_1k)
    (r : ℕ → EndRec K) (hc : ℕ → HeadCoef K) (Hu Hd : ℕ → K)
    (hr : ∀ k, k < ix.NK → r k = endRec .b (co.slice (ix.i_1k k) (ix.I_1k k)) (ix.nk k)
        (fun j => (sweptFwd g co ix f0).U (ix.I_1k k + j)) (fun j => (sweptFwd g co ix f0).V (ix.I_1k k + j))
        (fun j => (sweptFwd g co ix f0).W (ix.I_1k k + j)) (fun j => (sweptBwd g co ix b0).X (ix.I_1k k + j))
        (fun j => (sweptBwd g co ix b0).Y (ix.I_1k k + j)) (fun j => (sweptBwd g co ix b0).Z (ix.I_1k k + j)))
    {k : ℕ} (hk : k < ix.NK) (hs : HeadSigns (hc k))
    (ph : Physical g (co.slice (ix.i_1k k) (ix.I_1k k)) (ix.nk k))
    (eu : mn ≤ huk (r k) (hc k) (Hu k) (Hd k)) (ed : mn ≤ hdk (r k) (hc k) (Hu k) (Hd k))
    (mm : mn ≤ mx k) :
    let s := sweptInternals g co ix mn mx (fun k => huk (r k) (hc k) (Hu k) (Hd k))
      (fun k => hdk (r k) (hc k) (Hu k) (Hd k)) back f0 b0 s0
    (∀ j, 1 ≤ j → j < ix.nk k → mn < s.h (ix.I_1k k + j) ∧ s.h (ix.I_1k k + j) < mx k) →
    SaintVenant g (co.slice (ix.i_1k k) (ix.I_1k k)) (ix.nk k) (fun j => s.Q (ix.i_1k k + j))
      (fun j => s.h (ix.I_1k k + j)) (Quk (r k) (hc k) (Hu k) (Hd k)) (Qdk (r k) (hc k) (Hu k) (Hd k)) := by
  intro s strict
  set co' := co.slice (ix.i_1k k) (ix.I_1k k) with hco
  have n1 := L.pos k hk
  have F := sweptFwd_rel g co ix f0 L hk
  have B := sweptBwd_rel g co ix b0 L hk
  have fp := physical_fwdPivots ph F
  have bp := physical_bwdPivots ph B
  have xp : ∀ j, 1 ≤ j → j < ix.nk k → (sweptBwd g co ix b0).X (ix.I_1k k + j) ≠ 0 :=
    fun j _ h2 => (bwd_signs ph B j h2).2.2.1.ne'
  obtain ⟨h0, hn, Qu, Qd, S⟩ := C01_internals_solve_saint_venant g co ix mn mx
    (fun k => huk (r k) (hc k) (Hu k) (Hd k)) (fun k => hdk (r k) (hc k) (Hu k) (Hd k)) back f0 b0 s0 L hk
    eu ed mm fp bp xp strict
  have D0 : DkStar (r k) (hc k) ≠ 0 := by
    have := DkStar_ge_one (r := r k) (hc := hc k) (by rw [hr k hk]; exact endSigns n1 ph F B .b) hs
    exact ne_of_gt (lt_of_lt_of_le zero_lt_one this)
  obtain ⟨bk, fk, -, -⟩ := C04_end_relations (r k) (hc k) (Hu k) (Hd k) D0
  have fs := fwd_sound F fp S (ix.nk k - 1) (by omega)
  have bs := bwd_sound B bp S 0 n1
  have c0 := S.continuity 0 (by omega)
  have cn := S.continuity (ix.nk k) le_rfl
  rw [qIn_zero, qOut_lt _ _ n1] at c0
  rw [qOut_end] at cn
  have en : ix.nk k - 1 + 1 = ix.nk k := by omega
  have qn : qIn (fun j => s.Q (ix.i_1k k + j)) Qu (ix.nk k) = s.Q (ix.i_1k k + (ix.nk k - 1)) := by
    simp [qIn]; omega
  rw [qn] at cn
  simp only [en, add_zero] at fs bs c0 cn
  simp only [s] at *
  rw [h0, hn] at bs fs
  rw [h0] at c0
  rw [hn] at cn
  have eQu : Qu = Quk (r k) (hc k) (Hu k) (Hd k) := by
    have rX := congrArg EndRec.X (hr k hk)
    have rY := congrArg EndRec.Y (hr k hk)
    have rZ := congrArg EndRec.Z (hr k hk)
    simp only [endRec, add_zero] at rX rY rZ
    rw [bk, rX, rY, rZ]
    linear_combination bs - c0
  have eQd : Qd = Qdk (r k) (hc k) (Hu k) (Hd k) := by
    have rU := congrArg EndRec.U (hr k hk)
    have rV := congrArg EndRec.V (hr k hk)
    have rW := congrArg EndRec.W (hr k hk)
    simp only [endRec] at rU rV rW
    rw [fk, rU, rV, rW]
    linear_combination fs + cn
  rw [← eQu, ← eQd]
  exact S

/-! ### Non-vacuity -/

/-- A one-link superlink with `W=X=1, Z=U=-1` and losses meets the hypotheses of C04, C05, C19. -/
example : EndSigns (⟨1, 0, -1, -1, 0, 1⟩ : EndRec ℚ) ∧
    HeadSigns (headCoefZ (10:ℚ) 3 2 1 (-1) 2 2 1 1 0 0) ∧
    DkStar (⟨1, 0, -1, -1, 0, 1⟩ : EndRec ℚ) (headCoefZ (10:ℚ) 3 2 1 (-1) 2 2 1 1 0 0) ≠ 0 := by
  have h1 : EndSigns (⟨1, 0, -1, -1, 0, 1⟩ : EndRec ℚ) := by constructor <;> norm_num
  have h2 : HeadSigns (headCoefZ (10:ℚ) 3 2 1 (-1) 2 2 1 1 0 0) :=
    headCoefZ_signs (by norm_num) (by norm_num) (by norm_num)
  exact ⟨h1, h2, ne_of_gt (lt_of_lt_of_le zero_lt_one (DkStar_ge_one h1 h2))⟩

end Pipedream.Superlink
