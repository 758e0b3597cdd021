import Verif.MirrorModel
import Verif.PartProps

/-!
# C111: which end of a superlink is called upstream

Entering superlinks from the other end changes nothing but the signs of their flows, as long as no interior
depth is cut at its bounds. When one is cut, the internal solve depends on the direction.
-/

namespace Pipedream.Step

open Pipedream.Sweep Pipedream.Link Pipedream.Superlink Pipedream.Control Pipedream.Network
open Pipedream.Geometry Pipedream.Interp

/-! ### The sweeps of a turned superlink -/

/-- Coefficients of a superlink of `n` links, entered from the other end. -/
def mirrorCo (n : ℕ) (co : Coef ℝ) : Coef ℝ where
  a := fun i => co.c (n - 1 - i)
  b := fun i => co.b (n - 1 - i)
  c := fun i => co.a (n - 1 - i)
  P := fun i => -co.P (n - 1 - i)
  A := fun i => co.A (n - 1 - i)
  E := fun I => co.E (n - I)
  D := fun I => co.D (n - I)

theorem mirror_fwd {g : ℝ} {co : Coef ℝ} {n : ℕ} {O X Y Z : ℕ → ℝ} (hn : 1 ≤ n)
    (R : BwdRel g co n O X Y Z) :
    FwdRel g (mirrorCo n co) n (fun j => O (n - 1 - j)) (fun j => -X (n - 1 - j)) (fun j => -Y (n - 1 - j))
      (fun j => -Z (n - 1 - j)) := by
  have e0 : n - 1 - 0 = n - 1 := rfl
  refine ⟨?_, ?_, ?_, ?_, fun j hj => ?_, fun j hj => ?_, fun j hj => ?_, fun j hj => ?_⟩
  · simp only [mirrorCo, T_1k]
    rw [Nat.sub_zero, R.On, O_nk]; ring
  · simp only [mirrorCo, U_1k, safeDivide_eq]
    rw [Nat.sub_zero, R.Xn, X_Nk, safeDivide_eq]; ring
  · simp only [mirrorCo, V_1k, safeDivide_eq]
    rw [Nat.sub_zero, Nat.sub_zero, R.Yn, Y_Nk, safeDivide_eq]; ring
  · simp only [mirrorCo, W_1k, safeDivide_eq]
    rw [Nat.sub_zero, Nat.sub_zero, R.Zn, Z_Nk, safeDivide_eq]; ring
  all_goals
    obtain ⟨i, rfl⟩ : ∃ i, n = i + 1 + (j + 1) := ⟨n - 1 - (j + 1), by omega⟩
    have e1 : i + 1 + (j + 1) - 1 - (j + 1) = i := by omega
    have e2 : i + 1 + (j + 1) - 1 - j = i + 1 := by omega
    have e3 : i + 1 + (j + 1) - (j + 1) = i + 1 := by omega
    have e4 : i + 1 + (j + 1) - (j + 2) = i := by omega
    simp only [mirrorCo, e1, e2, e3, e4]
  · rw [R.Os i (by omega) (by omega)]
    simp only [O_ik, T_ik, safeDivide_eq]
    rw [show (-X (i + 1) - co.E (i + 1)) = -(X (i + 1) + co.E (i + 1)) by ring, div_neg]; ring
  · rw [R.Xs i (by omega) (by omega)]
    simp only [X_Ik, U_Ik, safeDivide_eq]; ring
  · rw [R.Ys i (by omega) (by omega)]
    simp only [Y_Ik, V_Ik, safeDivide_eq]
    rw [show (-X (i + 1) - co.E (i + 1)) = -(X (i + 1) + co.E (i + 1)) by ring, div_neg]; ring
  · rw [R.Zs i (by omega) (by omega)]
    simp only [Z_Ik, W_Ik, safeDivide_eq]
    rw [show (-X (i + 1) - co.E (i + 1)) * O i = -((X (i + 1) + co.E (i + 1)) * O i) by ring, div_neg]; ring

theorem mirror_bwd {g : ℝ} {co : Coef ℝ} {n : ℕ} {T U V W : ℕ → ℝ} (hn : 1 ≤ n)
    (R : FwdRel g co n T U V W) :
    BwdRel g (mirrorCo n co) n (fun j => T (n - 1 - j)) (fun j => -U (n - 1 - j)) (fun j => -V (n - 1 - j))
      (fun j => -W (n - 1 - j)) := by
  have e0 : n - 1 - (n - 1) = 0 := by omega
  have e1 : n - (n - 1) = 1 := by omega
  refine ⟨?_, ?_, ?_, ?_, fun j _ hj => ?_, fun j _ hj => ?_, fun j _ hj => ?_, fun j _ hj => ?_⟩
  · simp only [mirrorCo, O_nk, e0]
    rw [R.T0, T_1k]; ring
  · simp only [mirrorCo, X_Nk, safeDivide_eq, e0, e1]
    rw [R.U0, U_1k, safeDivide_eq]; ring
  · simp only [mirrorCo, Y_Nk, safeDivide_eq, e0, e1, Nat.sub_self]
    rw [R.V0, V_1k, safeDivide_eq]; ring
  · simp only [mirrorCo, Z_Nk, safeDivide_eq, e0, Nat.sub_self]
    rw [R.W0, W_1k, safeDivide_eq]; ring
  all_goals
    obtain ⟨i, rfl⟩ : ∃ i, n = i + 1 + (j + 1) := ⟨n - 1 - (j + 1), by omega⟩
    have e1 : i + 1 + (j + 1) - 1 - (j + 1) = i := by omega
    have e2 : i + 1 + (j + 1) - 1 - j = i + 1 := by omega
    have e3 : i + 1 + (j + 1) - (j + 1) = i + 1 := by omega
    have e4 : i + 1 + (j + 1) - j = i + 2 := by omega
    simp only [mirrorCo, e1, e2, e3, e4]
  · rw [R.Ts i (by omega)]
    simp only [O_ik, T_ik, safeDivide_eq]
    rw [show (-U i + co.E (i + 1)) = -(U i - co.E (i + 1)) by ring, div_neg]; ring
  · rw [R.Us i (by omega)]
    simp only [X_Ik, U_Ik, safeDivide_eq]; ring
  · rw [R.Vs i (by omega)]
    simp only [Y_Ik, V_Ik, safeDivide_eq]
    rw [show (-U i + co.E (i + 1)) = -(U i - co.E (i + 1)) by ring, div_neg]; ring
  · rw [R.Ws i (by omega)]
    simp only [Z_Ik, W_Ik, safeDivide_eq]
    rw [show (-U i + co.E (i + 1)) * T (i + 1) = -((U i - co.E (i + 1)) * T (i + 1)) by ring, div_neg]; ring

theorem mirror_physical {g : ℝ} {co : Coef ℝ} {n : ℕ} (ph : Physical g co n) : Physical g (mirrorCo n co) n where
  g_pos := ph.g_pos
  A_pos := fun i hi => ph.A_pos _ (by omega)
  a_nonpos := fun i hi => ph.c_nonpos _ (by omega)
  c_nonpos := fun i hi => ph.a_nonpos _ (by omega)
  abc_pos := fun i hi => by
    have := ph.abc_pos (n - 1 - i) (by omega)
    show 0 < co.c _ + co.b _ + co.a _
    linarith
  E_nonneg := fun I hI => ph.E_nonneg _ (by omega)

theorem mirror_saintVenant {g : ℝ} {co : Coef ℝ} {n : ℕ} {Q h : ℕ → ℝ} {Qu Qd : ℝ} (hn : 1 ≤ n)
    (S : SaintVenant g co n Q h Qu Qd) :
    SaintVenant g (mirrorCo n co) n (fun j => -Q (n - 1 - j)) (fun j => h (n - j)) (-Qd) (-Qu) := by
  have ein : ∀ I, I ≤ n → qIn (fun j => -Q (n - 1 - j)) (-Qd) I = -qOut n Q Qd (n - I) := by
    intro I hI; unfold qIn qOut
    by_cases h0 : I = 0
    · simp [h0]
    · rw [if_neg h0, if_neg (by omega), show n - I = n - 1 - (I - 1) by omega]
  have eout : ∀ I, I ≤ n → qOut n (fun j => -Q (n - 1 - j)) (-Qu) I = -qIn Q Qu (n - I) := by
    intro I hI; unfold qIn qOut
    by_cases h0 : I = n
    · simp [h0]
    · rw [if_neg h0, if_neg (by omega), show n - I - 1 = n - 1 - I by omega]
  refine ⟨fun i hi => ?_, fun I hI => ?_⟩
  · have := S.momentum (n - 1 - i) (by omega)
    rw [ein i hi.le, eout (i + 1) hi]
    simp only [mirrorCo]
    rw [show n - (i + 1) = n - 1 - i by omega, show n - i = n - 1 - i + 1 by omega]
    linarith
  · have := S.continuity (n - I) (by omega)
    rw [ein I hI, eout I hI]
    simp only [mirrorCo]
    linarith

/-- What the internal solve returns for a turned superlink, when no interior depth is cut. -/
theorem mirror_internals {g : ℝ} {co : Coef ℝ} {n : ℕ} {T U V W O X Y Z : ℕ → ℝ} (hn : 1 ≤ n)
    (ph : Physical g co n) (F : FwdRel g co n T U V W) (B : BwdRel g co n O X Y Z)
    {T' U' V' W' O' X' Y' Z' : ℕ → ℝ} (F' : FwdRel g (mirrorCo n co) n T' U' V' W')
    (B' : BwdRel g (mirrorCo n co) n O' X' Y' Z') {mn mx hu hd : ℝ} {back : Bool} {h Q h' Q' : ℕ → ℝ}
    (R : IntRel U V W X Y Z mn mx hu hd n back h Q) (R' : IntRel U' V' W' X' Y' Z' mn mx hd hu n back h' Q')
    (ins : ∀ j, 1 ≤ j → j < n → mn < h j ∧ h j < mx) :
    (∀ j, j ≤ n → h' j = h (n - j)) ∧ (∀ j, j < n → Q' j = -Q (n - 1 - j)) := by
  have fp := physical_fwdPivots ph F
  have bp := physical_bwdPivots ph B
  have ph' := mirror_physical ph
  have fp' := physical_fwdPivots ph' F'
  have bp' := physical_bwdPivots ph' B'
  obtain ⟨q, y, Qu, Qd, S, e0, en⟩ := exists_solution hn F fp hu hd
  obtain ⟨a1, a2⟩ := internals_eq_solution hn F B fp bp (fun j _ h2 => (bwd_signs ph B j h2).2.2.1.ne') R S e0 en
    (fun j h1 h2 => Or.inr (ins j h1 h2))
  obtain ⟨b1, b2⟩ := internals_eq_solution hn F' B' fp' bp' (fun j _ h2 => (bwd_signs ph' B' j h2).2.2.1.ne') R'
    (mirror_saintVenant hn S) en (by simpa using e0) (fun j h1 h2 => by
      refine Or.inl (clip_eq_of_mem ?_ ?_) <;> rw [← a1 _ (by omega)]
      · exact (ins (n - j) (by omega) (by omega)).1.le
      · exact (ins (n - j) (by omega) (by omega)).2.le)
  exact ⟨fun j hj => by rw [b1 j hj, a1 _ (by omega)], fun j hj => by rw [b2 j hj, a2 _ (by omega)]⟩

/-! ### End relations of a turned superlink -/

def turnRec (b : Bool) (r : EndRec ℝ) : EndRec ℝ := if b then ⟨-r.U, -r.V, -r.W, -r.X, -r.Y, -r.Z⟩ else r

def turnHead (b : Bool) (c : HeadCoef ℝ) : HeadCoef ℝ :=
  if b then ⟨-c.kappa_d, c.lam_d, c.mu_d, -c.kappa_u, c.lam_u, c.mu_u⟩ else c

theorem turn_Quk (b : Bool) (r : EndRec ℝ) (c : HeadCoef ℝ) (Hu Hd : ℝ) :
    Quk (turnRec b r) (turnHead b c) (endAt b Hu Hd) (endAt b Hd Hu) =
      signed1 b (endAt b (Quk r c Hu Hd) (Qdk r c Hu Hd)) := by
  cases b
  · rfl
  · simp only [turnRec, turnHead, endAt, signed1, if_true, Quk, Qdk, alphaUk, betaUk, chiUk, alphaDk, betaDk, chiDk,
      safeDivide_eq, DkStar]
    rw [show (-r.U * -c.kappa_d - 1) * (-r.X * -c.kappa_u - 1) - -r.W * -c.kappa_u * (-r.Z * -c.kappa_d) =
      (r.X * c.kappa_u - 1) * (r.U * c.kappa_d - 1) - r.Z * c.kappa_d * (r.W * c.kappa_u) by ring]
    ring

theorem turn_Qdk (b : Bool) (r : EndRec ℝ) (c : HeadCoef ℝ) (Hu Hd : ℝ) :
    Qdk (turnRec b r) (turnHead b c) (endAt b Hu Hd) (endAt b Hd Hu) =
      signed1 b (endAt b (Qdk r c Hu Hd) (Quk r c Hu Hd)) := by
  cases b
  · rfl
  · simp only [turnRec, turnHead, endAt, signed1, if_true, Quk, Qdk, alphaUk, betaUk, chiUk, alphaDk, betaDk, chiDk,
      safeDivide_eq, DkStar]
    rw [show (-r.U * -c.kappa_d - 1) * (-r.X * -c.kappa_u - 1) - -r.W * -c.kappa_u * (-r.Z * -c.kappa_d) =
      (r.X * c.kappa_u - 1) * (r.U * c.kappa_d - 1) - r.Z * c.kappa_d * (r.W * c.kappa_u) by ring]
    ring

theorem turn_huk (b : Bool) (r : EndRec ℝ) (c : HeadCoef ℝ) (Hu Hd : ℝ) :
    huk (turnRec b r) (turnHead b c) (endAt b Hu Hd) (endAt b Hd Hu) = endAt b (huk r c Hu Hd) (hdk r c Hu Hd) := by
  unfold huk
  rw [turn_Quk]
  cases b
  · rfl
  · simp only [turnHead, endAt, signed1, if_true, hdk]; ring

theorem turn_hdk (b : Bool) (r : EndRec ℝ) (c : HeadCoef ℝ) (Hu Hd : ℝ) :
    hdk (turnRec b r) (turnHead b c) (endAt b Hu Hd) (endAt b Hd Hu) = endAt b (hdk r c Hu Hd) (huk r c Hu Hd) := by
  unfold hdk
  rw [turn_Qdk]
  cases b
  · rfl
  · simp only [turnHead, endAt, signed1, if_true, huk]; ring

/-! ### Sections do not know a direction -/

theorem wet_symm (a b : ℝ) : wet a b = wet b a := by unfold wet; rw [add_comm]

theorem depth_symm (a b y : ℝ) : depth a b y = depth b a y := by unfold depth; rw [wet_symm]

theorem area_symm (s : Shape) (p : GP) (a b : ℝ) : area s p a b = area s p b a := by
  cases s <;> simp only [area, circularA, rectA, triangularA, trapezoidalA, parabolicA, ellipticalA, forceMainA,
    floodplainA, depth_symm a b]

theorem topWidth_symm (s : Shape) (p : GP) (a b : ℝ) : topWidth s p a b = topWidth s p b a := by
  cases s <;> simp only [topWidth, circularB, rectClosedB, rectOpenB, triangularB, trapezoidalB, parabolicB,
    ellipticalB, forceMainB, floodplainB, depth_symm a b, wet_symm a b]

theorem perimeter_symm (eps old : ℝ) (s : Shape) (p : GP) (a b : ℝ) :
    perimeter eps old s p a b = perimeter eps old s p b a := by
  cases s <;> simp only [perimeter, circularPe, rectPe, triangularPe, trapezoidalPe, parabolicPe, widePe,
    forceMainPe, floodplainPe, depth_symm a b, add_comm a b]

theorem Section.A_symm (s : Section) (a b : ℝ) : s.A a b = s.A b a := by
  cases s
  · exact area_symm _ _ a b
  · simp only [Section.A]; rw [add_comm]

theorem Section.B_symm (s : Section) (a b : ℝ) : s.B a b = s.B b a := by
  cases s
  · exact topWidth_symm _ _ a b
  · simp only [Section.B]; rw [add_comm]

theorem Section.R_symm (eps : ℝ) {ell : GP → ℝ → ℝ → ℝ} (he : ∀ p a b, ell p a b = ell p b a) (s : Section)
    (a b : ℝ) : s.R eps ell a b = s.R eps ell b a := by
  cases s
  · simp only [Section.R]; rw [area_symm, he, perimeter_symm]
  · simp only [Section.R]; rw [add_comm]

theorem damping_neg (g Q A B : ℝ) : Diag.damping g (-Q) A B = Diag.damping g Q A B := by
  unfold Diag.damping Diag.froude
  rw [safeDivide_eq (-Q), neg_div, abs_neg, ← safeDivide_eq Q]

theorem linkAt_lt {b : Bool} {n j : ℕ} (h : j < n) : linkAt b n j < n := by unfold linkAt; split_ifs <;> omega

theorem nodeAt_le {b : Bool} {n j : ℕ} (h : j ≤ n) : nodeAt b n j ≤ n := by unfold nodeAt; split_ifs <;> omega

variable {F : ℕ → Bool} {m m' : Model} {P P' : Plan}

/-- Two geometries of the same water. -/
structure SameGeo (F : ℕ → Bool) (m : Model) (G G' : Geo) : Prop where
  A : ∀ k, k < m.ix.NK → ∀ j, j < m.ix.nk k →
    G'.A (m.ix.i_1k k + j) = G.A (m.ix.i_1k k + linkAt (F k) (m.ix.nk k) j)
  R : ∀ k, k < m.ix.NK → ∀ j, j < m.ix.nk k →
    G'.R (m.ix.i_1k k + j) = G.R (m.ix.i_1k k + linkAt (F k) (m.ix.nk k) j)
  B : ∀ k, k < m.ix.NK → ∀ j, j < m.ix.nk k →
    G'.B (m.ix.i_1k k + j) = G.B (m.ix.i_1k k + linkAt (F k) (m.ix.nk k) j)
  sigma : ∀ k, k < m.ix.NK → ∀ j, j < m.ix.nk k →
    G'.sigma (m.ix.i_1k k + j) = G.sigma (m.ix.i_1k k + linkAt (F k) (m.ix.nk k) j)
  A_u : ∀ k, k < m.ix.NK → G'.A_u k = endAt (F k) (G.A_u k) (G.A_d k)
  B_u : ∀ k, k < m.ix.NK → G'.B_u k = endAt (F k) (G.B_u k) (G.B_d k)
  A_d : ∀ k, k < m.ix.NK → G'.A_d k = endAt (F k) (G.A_d k) (G.A_u k)
  B_d : ∀ k, k < m.ix.NK → G'.B_d k = endAt (F k) (G.B_d k) (G.B_u k)
  As : ∀ j, j < m.M → G'.As j = G.As j
  V : ∀ j, j < m.M → G'.V j = G.V j
  Ao : ∀ k, k < m.n_o → G'.Ao k = G.Ao k

theorem same_geoOf (c : m.Consistent) (lt : LinkTables m P) (lt' : LinkTables m' P') (t : Turned F m P m' P')
    {hid hid' : Hidden} (tu : ∀ k, k < m.ix.NK → hid'.thu k = endAt (F k) (hid.thu k) (hid.thd k))
    (td : ∀ k, k < m.ix.NK → hid'.thd k = endAt (F k) (hid.thd k) (hid.thu k)) {Ao Ao' : ℕ → ℝ}
    (hA : ∀ k, k < m.n_o → Ao' k = Ao k) {s s' : Hyd} (sw : SameWater F m s s') :
    SameGeo F m (m.geoOf P hid Ao s) (m'.geoOf P' hid' Ao' s') := by
  have n1 := c.layout.pos
  have Ik' : ∀ k, k < m.ix.NK → ∀ j, j < m.ix.nk k → P'.Ik (m.ix.i_1k k + j) = m.ix.I_1k k + j := by
    have := lt'.Ik; rw [t.ix] at this; exact this
  -- the two depths of a link, in one order or the other
  have hh : ∀ k, k < m.ix.NK → ∀ j, j < m.ix.nk k → ∀ f : ℝ → ℝ → ℝ, (∀ a b, f a b = f b a) →
      f (s'.h (P'.Ik (m.ix.i_1k k + j))) (s'.h (P'.Ik (m.ix.i_1k k + j) + 1)) =
      f (s.h (P.Ik (m.ix.i_1k k + linkAt (F k) (m.ix.nk k) j)))
        (s.h (P.Ik (m.ix.i_1k k + linkAt (F k) (m.ix.nk k) j) + 1)) := fun k hk j hj f hf => by
    rw [lt.Ik k hk _ (linkAt_lt hj), Ik' k hk j hj, add_assoc, add_assoc, sw.h k hk j hj.le,
      sw.h k hk (j + 1) hj]
    unfold linkAt nodeAt
    cases F k
    · rfl
    · simp only [if_true]
      rw [hf, show m.ix.nk k - (j + 1) = m.ix.nk k - 1 - j by omega, show m.ix.nk k - j = m.ix.nk k - 1 - j + 1 by omega]
  have sec0 : ∀ k, k < m.ix.NK → P'.sec (m.ix.i_1k k) =
      endAt (F k) (P.sec (m.ix.i_1k k)) (P.sec (m.ix.i_1k k + m.ix.nk k - 1)) := fun k hk => by
    have := t.sec k hk 0 (n1 k hk)
    rw [add_zero] at this
    rw [this]; unfold linkAt endAt
    cases F k
    · rfl
    · simp only [if_true]; congr 1; have := n1 k hk; omega
  have secn : ∀ k, k < m.ix.NK → P'.sec (m.ix.i_1k k + m.ix.nk k - 1) =
      endAt (F k) (P.sec (m.ix.i_1k k + m.ix.nk k - 1)) (P.sec (m.ix.i_1k k)) := fun k hk => by
    have p := n1 k hk
    have := t.sec k hk (m.ix.nk k - 1) (by omega)
    rw [← Nat.add_sub_assoc p] at this
    rw [this]; unfold linkAt endAt
    cases F k
    · simp only [Bool.false_eq_true, if_false]; congr 1; omega
    · simp only [if_true]; congr 1; omega
  have h0 : ∀ k, k < m.ix.NK → s'.h (m.ix.I_1k k) =
      endAt (F k) (s.h (m.ix.I_1k k)) (s.h (m.ix.I_1k k + m.ix.nk k)) := fun k hk => by
    have := sw.h k hk 0 (Nat.zero_le _)
    rw [add_zero] at this
    rw [this]; unfold nodeAt endAt
    cases F k <;> rfl
  have hn : ∀ k, k < m.ix.NK → s'.h (m.ix.I_1k k + m.ix.nk k) =
      endAt (F k) (s.h (m.ix.I_1k k + m.ix.nk k)) (s.h (m.ix.I_1k k)) := fun k hk => by
    rw [sw.h k hk _ le_rfl]; unfold nodeAt endAt
    cases F k
    · rfl
    · simp
  have Hu : ∀ k, k < m.ix.NK → s'.H (m'.Ju k) = endAt (F k) (s.H (m.Ju k)) (s.H (m.Jd k)) := fun k hk => by
    rw [t.Ju k hk]; unfold endAt
    cases F k
    · exact sw.H _ (c.Ju k hk)
    · exact sw.H _ (c.Jd k hk)
  have Hd : ∀ k, k < m.ix.NK → s'.H (m'.Jd k) = endAt (F k) (s.H (m.Jd k)) (s.H (m.Ju k)) := fun k hk => by
    rw [t.Jd k hk]; unfold endAt
    cases F k
    · exact sw.H _ (c.Jd k hk)
    · exact sw.H _ (c.Ju k hk)
  refine ⟨fun k hk j hj => ?_, fun k hk j hj => ?_, fun k hk j hj => ?_, fun k hk j hj => ?_, fun k hk => ?_,
    fun k hk => ?_, fun k hk => ?_, fun k hk => ?_, fun j hj => ?_, fun j hj => ?_, fun k hk => ?_⟩
  · simp only [Model.geoOf]; rw [t.sec k hk j hj]; exact hh k hk j hj _ (Section.A_symm _)
  · simp only [Model.geoOf]; rw [t.sec k hk j hj, t.eps, t.ell]
    exact hh k hk j hj _ (Section.R_symm _ t.ell_symm _)
  · simp only [Model.geoOf]; rw [t.sec k hk j hj]; exact hh k hk j hj _ (Section.B_symm _)
  · simp only [Model.geoOf]
    rw [t.sec k hk j hj, hh k hk j hj _ (Section.A_symm _), hh k hk j hj _ (Section.B_symm _), t.damp, t.g,
      sw.Q k hk j hj]
    unfold signed1
    cases F k
    · rfl
    · simp only [if_true, damping_neg]
  · simp only [Model.geoOf, t.ix, upTo_of_lt _ hk]
    rw [sec0 k hk, h0 k hk, tu k hk, Hu k hk, t.z_uk k hk]
    unfold endAt
    cases F k <;> rfl
  · simp only [Model.geoOf, t.ix, upTo_of_lt _ hk]
    rw [sec0 k hk, h0 k hk, tu k hk, Hu k hk, t.z_uk k hk]
    unfold endAt
    cases F k <;> rfl
  · simp only [Model.geoOf, t.ix, upTo_of_lt _ hk]
    rw [secn k hk, hn k hk, td k hk, Hd k hk, t.z_dk k hk]
    unfold endAt
    cases F k <;> rfl
  · simp only [Model.geoOf, t.ix, upTo_of_lt _ hk]
    rw [secn k hk, hn k hk, td k hk, Hd k hk, t.z_dk k hk]
    unfold endAt
    cases F k <;> rfl
  · simp only [Model.geoOf, t.M, upTo_of_lt _ hj]
    rw [t.storage, sw.H j hj, t.z_inv, t.md]
  · simp only [Model.geoOf, t.M, upTo_of_lt _ hj]
    rw [t.storage, sw.H j hj, t.z_inv, t.md]
  · simp only [Model.geoOf, t.n_o, upTo_of_lt _ hk]
    exact hA k hk

/-! ### Coefficients -/

variable {G G' : Geo} {inp inp' : Inputs} {prev prev' cur cur' : Hyd} {co co' : Coef ℝ} {wk wk' : Work}

/-- Coefficients of a superlink of `n` links, entered from the other end or not. -/
def turnCo (b : Bool) (n : ℕ) (co : Coef ℝ) : Coef ℝ := if b then mirrorCo n co else co

/-- Velocities at the ends of a link of a turned superlink. -/
theorem uIk_mirror {dx dx' u u' : ℕ → ℝ} {st' fin : ℕ → Bool} {b j n : ℕ} (hj : j < n)
    (hf : fin (b + (n - 1 - j)) = true ↔ n - 1 - j + 1 = n)
    (hs' : st' (b + j) = true ↔ j = 0) (hx : ∀ i, i < n → dx' (b + i) = dx (b + (n - 1 - i)))
    (hu : ∀ i, i < n → u' (b + i) = -u (b + (n - 1 - i))) :
    uIk dx' u' st' (b + j) = -uIp1k dx u fin (b + (n - 1 - j)) := by
  unfold uIk uIp1k
  by_cases h0 : j = 0
  · rw [if_pos (hs'.2 h0), if_pos (hf.2 (by omega)), hu j hj]
  · rw [if_neg (fun h => h0 (hs'.1 h)), if_neg (show ¬fin (b + (n - 1 - j)) = true from fun h => h0 (by have := hf.1 h; omega))]
    dsimp only
    rw [Nat.add_sub_assoc (by omega), hx j hj, hx (j - 1) (by omega), hu j hj, hu (j - 1) (by omega),
      show n - 1 - (j - 1) = n - 1 - j + 1 by omega, ← add_assoc]
    split_ifs with h
    · rw [← neg_div]; congr 1; ring
    · simp

theorem uIp1k_mirror {dx dx' u u' : ℕ → ℝ} {st fin' : ℕ → Bool} {b j n : ℕ} (hj : j < n)
    (hs : st (b + (n - 1 - j)) = true ↔ n - 1 - j = 0)
    (hf' : fin' (b + j) = true ↔ j + 1 = n) (hx : ∀ i, i < n → dx' (b + i) = dx (b + (n - 1 - i)))
    (hu : ∀ i, i < n → u' (b + i) = -u (b + (n - 1 - i))) :
    uIp1k dx' u' fin' (b + j) = -uIk dx u st (b + (n - 1 - j)) := by
  unfold uIk uIp1k
  by_cases h0 : j + 1 = n
  · rw [if_pos (hf'.2 h0), if_pos (hs.2 (by omega)), hu j hj]
  · rw [if_neg (fun h => h0 (hf'.1 h)), if_neg (show ¬st (b + (n - 1 - j)) = true from fun h => h0 (by have := hs.1 h; omega))]
    dsimp only
    rw [add_assoc, Nat.add_sub_assoc (show 1 ≤ n - 1 - j by omega), hx j hj, hx (j + 1) (by omega), hu j hj,
      hu (j + 1) (by omega), show n - 1 - (j + 1) = n - 1 - j - 1 by omega]
    split_ifs with h
    · rw [← neg_div]; congr 1; ring
    · simp

theorem uik_neg (Q A : ℝ) : uik (-Q) A = -uik Q A := by
  unfold uik
  split_ifs
  · exact neg_div _ _
  · simp

theorem frictionSlope_neg (Q dx A R n : ℝ) (method : ℤ) (g : ℝ) :
    frictionSlope (-Q) dx A R n method g = frictionSlope Q dx A R n method g := by
  unfold frictionSlope; simp only [abs_neg]

theorem same_coefs (c : m.Consistent) (c' : m'.Consistent) (st : StartTables m) (st' : StartTables m')
    (t : Turned F m P m' P') (sg : SameGeo F m G G') (si : SameInputs F m inp inp')
    (sp : SameWater F m prev prev') (sc : SameWater F m cur cur')
    (h : StepCoefs m.g m.N (m.linkIn G inp prev cur) (m.nodeIn G inp prev) m.nix co)
    (h' : StepCoefs m'.g m'.N (m'.linkIn G' inp' prev' cur') (m'.nodeIn G' inp' prev') m'.nix co')
    {k : ℕ} (hk : k < m.ix.NK) :
    CoOn (m.ix.nk k) (co'.slice (m.ix.i_1k k) (m.ix.I_1k k))
      (turnCo (F k) (m.ix.nk k) (co.slice (m.ix.i_1k k) (m.ix.I_1k k))) := by
  obtain ⟨hl, hE, hD⟩ := h
  obtain ⟨hl', hE', hD'⟩ := h'
  have n1 := c.layout.pos k hk
  have inN := c.inN k hk
  rw [t.N] at hl'
  have sf' := st'.first
  have sl' := st'.last
  have nod' := c'.nodes
  rw [t.ix] at sf' sl' nod'
  have lk : ∀ j, j < m.ix.nk k → linkAt (F k) (m.ix.nk k) j < m.ix.nk k := fun j hj => linkAt_lt hj
  -- velocities
  have hv : ∀ j, j < m.ix.nk k → uik (cur'.Q (m.ix.i_1k k + j)) (G'.A (m.ix.i_1k k + j)) =
      signed1 (F k) (uik (cur.Q (m.ix.i_1k k + linkAt (F k) (m.ix.nk k) j))
        (G.A (m.ix.i_1k k + linkAt (F k) (m.ix.nk k) j))) := fun j hj => by
    rw [sc.Q k hk j hj, sg.A k hk j hj]
    unfold signed1
    cases F k
    · rfl
    · exact uik_neg _ _
  have ha : ∀ j, j < m.ix.nk k → (m'.linkIn G' inp' prev' cur').a (m.ix.i_1k k + j) =
      endAt (F k) ((m.linkIn G inp prev cur).a (m.ix.i_1k k + linkAt (F k) (m.ix.nk k) j))
        ((m.linkIn G inp prev cur).c (m.ix.i_1k k + linkAt (F k) (m.ix.nk k) j)) := fun j hj => by
    show aIk (uIk m'.dx (fun i => uik (cur'.Q i) (G'.A i)) m'.linkStart _) (G'.sigma _) = endAt (F k)
      (aIk (uIk m.dx (fun i => uik (cur.Q i) (G.A i)) m.linkStart _) (G.sigma _))
      (cIk (uIp1k m.dx (fun i => uik (cur.Q i) (G.A i)) m.linkEnd _) (G.sigma _))
    have hdx := t.dx k hk
    rw [sg.sigma k hk j hj]
    unfold endAt linkAt signed1 at *
    cases hF : F k
    · simp only [hF, Bool.false_eq_true, if_false] at *
      rw [uIk_copy (st.first k hk j hj) (sf' k hk j hj) (fun i hi => hdx i (by omega))
        (u := fun i => uik (cur.Q i) (G.A i)) (fun i hi => hv i (by omega))]
    · simp only [hF, if_true] at *
      rw [uIk_mirror hj (st.last k hk _ (by omega)) (sf' k hk j hj) hdx (u := fun i => uik (cur.Q i) (G.A i)) hv]
      rfl
  have hc : ∀ j, j < m.ix.nk k → (m'.linkIn G' inp' prev' cur').c (m.ix.i_1k k + j) =
      endAt (F k) ((m.linkIn G inp prev cur).c (m.ix.i_1k k + linkAt (F k) (m.ix.nk k) j))
        ((m.linkIn G inp prev cur).a (m.ix.i_1k k + linkAt (F k) (m.ix.nk k) j)) := fun j hj => by
    show cIk (uIp1k m'.dx (fun i => uik (cur'.Q i) (G'.A i)) m'.linkEnd _) (G'.sigma _) = endAt (F k)
      (cIk (uIp1k m.dx (fun i => uik (cur.Q i) (G.A i)) m.linkEnd _) (G.sigma _))
      (aIk (uIk m.dx (fun i => uik (cur.Q i) (G.A i)) m.linkStart _) (G.sigma _))
    have hdx := t.dx k hk
    rw [sg.sigma k hk j hj]
    unfold endAt linkAt signed1 at *
    cases hF : F k
    · simp only [hF, Bool.false_eq_true, if_false] at *
      rw [uIp1k_copy hj (st.last k hk j hj) (sl' k hk j hj) hdx (u := fun i => uik (cur.Q i) (G.A i)) hv]
    · simp only [hF, if_true] at *
      rw [uIp1k_mirror hj (st.first k hk _ (by omega)) (sl' k hk j hj) hdx (u := fun i => uik (cur.Q i) (G.A i)) hv]
      unfold cIk aIk; rw [neg_neg]
  have hJ : ∀ j, j ≤ m.ix.nk k →
      junctionArea (m'.nodeIn G' inp' prev') (m.ix.nk k) (m.ix.I_1k k) (m.ix.i_1k k) k j =
      junctionArea (m.nodeIn G inp prev) (m.ix.nk k) (m.ix.I_1k k) (m.ix.i_1k k) k
        (nodeAt (F k) (m.ix.nk k) j) := fun j hj => by
    simp only [junctionArea, Model.nodeIn]
    rw [sg.B_u k hk, sg.B_d k hk, t.dx_uk k hk, t.dx_dk k hk, t.A_S k hk j hj]
    have up : (if j = 0 then endAt (F k) (G.B_u k) (G.B_d k) * endAt (F k) (m.dx_uk k) (m.dx_dk k)
        else G'.B (m.ix.i_1k k + j - 1) * m'.dx (m.ix.i_1k k + j - 1)) =
        endAt (F k)
          (if nodeAt (F k) (m.ix.nk k) j = 0 then G.B_u k * m.dx_uk k
            else G.B (m.ix.i_1k k + nodeAt (F k) (m.ix.nk k) j - 1) *
              m.dx (m.ix.i_1k k + nodeAt (F k) (m.ix.nk k) j - 1))
          (if nodeAt (F k) (m.ix.nk k) j = m.ix.nk k then G.B_d k * m.dx_dk k
            else G.B (m.ix.i_1k k + nodeAt (F k) (m.ix.nk k) j) *
              m.dx (m.ix.i_1k k + nodeAt (F k) (m.ix.nk k) j)) := by
      by_cases h0 : j = 0
      · rw [if_pos h0]
        unfold endAt nodeAt
        cases F k
        · simp [h0]
        · simp [h0]
      · rw [if_neg h0, Nat.add_sub_assoc (by omega), sg.B k hk _ (by omega), t.dx k hk _ (by omega)]
        unfold endAt nodeAt linkAt
        cases F k
        · simp only [Bool.false_eq_true, if_false, h0]
          rw [Nat.add_sub_assoc (by omega)]
        · simp only [if_true]
          rw [if_neg (by omega), show m.ix.nk k - 1 - (j - 1) = m.ix.nk k - j by omega]
    have dn : (if j = m.ix.nk k then endAt (F k) (G.B_d k) (G.B_u k) * endAt (F k) (m.dx_dk k) (m.dx_uk k)
        else G'.B (m.ix.i_1k k + j) * m'.dx (m.ix.i_1k k + j)) =
        endAt (F k)
          (if nodeAt (F k) (m.ix.nk k) j = m.ix.nk k then G.B_d k * m.dx_dk k
            else G.B (m.ix.i_1k k + nodeAt (F k) (m.ix.nk k) j) *
              m.dx (m.ix.i_1k k + nodeAt (F k) (m.ix.nk k) j))
          (if nodeAt (F k) (m.ix.nk k) j = 0 then G.B_u k * m.dx_uk k
            else G.B (m.ix.i_1k k + nodeAt (F k) (m.ix.nk k) j - 1) *
              m.dx (m.ix.i_1k k + nodeAt (F k) (m.ix.nk k) j - 1)) := by
      by_cases h0 : j = m.ix.nk k
      · rw [if_pos h0]
        unfold endAt nodeAt
        cases F k
        · simp [h0]
        · simp [h0]
      · rw [if_neg h0, sg.B k hk _ (by omega), t.dx k hk _ (by omega)]
        unfold endAt nodeAt linkAt
        cases F k
        · simp only [Bool.false_eq_true, if_false, h0]
        · simp only [if_true]
          rw [if_neg (by omega), Nat.add_sub_assoc (by omega), show m.ix.nk k - j - 1 = m.ix.nk k - 1 - j by omega]
    rw [up, dn]
    unfold endAt
    cases F k
    · rfl
    · simp only [if_true]; ring
  have Nn := fun j (hj : j ≤ m.ix.nk k) => node_coeffs_eq (y := m.nodeIn G inp prev) n1 (c.nodes k hk) hj
  have Nn' := fun j (hj : j ≤ m.ix.nk k) => node_coeffs_eq (y := m'.nodeIn G' inp' prev') n1 (nod' k hk) hj
  have hb : ∀ j, j < m.ix.nk k → co'.b (m.ix.i_1k k + j) = co.b (m.ix.i_1k k + linkAt (F k) (m.ix.nk k) j) := by
    intro j hj
    have l := lk j hj
    have e := (hl (m.ix.i_1k k + linkAt (F k) (m.ix.nk k) j) (by omega)).2.1
    have e' := (hl' (m.ix.i_1k k + j) (by omega)).2.1
    simp only [LinkIn.b, ha j hj, hc j hj] at e e'
    simp only [Model.linkIn] at e e'
    rw [t.dx k hk j hj, si.dt, t.n k hk j hj, sc.Q k hk j hj, sg.A k hk j hj, sg.R k hk j hj,
      t.A_c k hk j hj, t.C k hk j hj, t.ctrl k hk j hj, sg.sigma k hk j hj, t.method k hk j hj, t.g] at e'
    refine Except.ok.inj (e'.symm.trans (Eq.trans ?_ e))
    unfold endAt signed1
    cases F k
    · rfl
    · simp only [if_true, bIk, frictionSlope_neg, abs_neg]
      congr 1; funext v; congr 1; ring
  have hP : ∀ j, j < m.ix.nk k → co'.P (m.ix.i_1k k + j) =
      signed1 (F k) (co.P (m.ix.i_1k k + linkAt (F k) (m.ix.nk k) j)) := by
    intro j hj
    have l := lk j hj
    rw [(hl _ (by omega)).2.2.2.1, (hl' _ (by omega)).2.2.2.1]
    simp only [LinkIn.P, Model.linkIn]
    rw [sp.Q k hk j hj, t.dx k hk j hj, si.dt, sg.A k hk j hj, t.S_o k hk j hj, sg.sigma k hk j hj, t.g]
    unfold signed1 PIk
    cases F k
    · rfl
    · simp only [if_true]; ring
  have hAA : ∀ j, j < m.ix.nk k → co'.A (m.ix.i_1k k + j) = co.A (m.ix.i_1k k + linkAt (F k) (m.ix.nk k) j) := by
    intro j hj
    have l := lk j hj
    rw [(hl _ (by omega)).2.2.2.2, (hl' _ (by omega)).2.2.2.2]
    exact sg.A k hk j hj
  have haa : ∀ j, j < m.ix.nk k → co'.a (m.ix.i_1k k + j) =
      endAt (F k) (co.a (m.ix.i_1k k + linkAt (F k) (m.ix.nk k) j))
        (co.c (m.ix.i_1k k + linkAt (F k) (m.ix.nk k) j)) := fun j hj => by
    have l := lk j hj
    rw [(hl _ (by omega)).1, (hl _ (by omega)).2.2.1, (hl' _ (by omega)).1, ha j hj]
  have hcc : ∀ j, j < m.ix.nk k → co'.c (m.ix.i_1k k + j) =
      endAt (F k) (co.c (m.ix.i_1k k + linkAt (F k) (m.ix.nk k) j))
        (co.a (m.ix.i_1k k + linkAt (F k) (m.ix.nk k) j)) := fun j hj => by
    have l := lk j hj
    rw [(hl _ (by omega)).1, (hl _ (by omega)).2.2.1, (hl' _ (by omega)).2.2.1, hc j hj]
  have hEE : ∀ j, j ≤ m.ix.nk k → co'.E (m.ix.I_1k k + j) = co.E (m.ix.I_1k k + nodeAt (F k) (m.ix.nk k) j) := by
    intro j hj
    rw [hE, hE', (Nn _ (nodeAt_le hj)).1, (Nn' j hj).1, hJ j hj]
    simp only [Model.nodeIn, si.dt]
  have hDD : ∀ j, j ≤ m.ix.nk k → co'.D (m.ix.I_1k k + j) = co.D (m.ix.I_1k k + nodeAt (F k) (m.ix.nk k) j) := by
    intro j hj
    rw [hD, hD', (Nn _ (nodeAt_le hj)).2, (Nn' j hj).2, hJ j hj]
    simp only [Model.nodeIn, si.dt, si.Q_0Ik k hk j hj, sp.h k hk j hj]
  clear ha hc hv hJ Nn Nn' lk
  unfold endAt linkAt nodeAt signed1 at *
  cases hF : F k
  · simp only [hF, Bool.false_eq_true, if_false] at *
    exact ⟨haa, hb, hcc, hP, hAA, hEE, hDD⟩
  · simp only [hF, if_true] at *
    exact ⟨haa, hb, hcc, hP, hAA, hEE, hDD⟩

/-- End coefficients of a turned superlink. -/
theorem same_endRec (c : m.Consistent) (c' : m'.Consistent) (t : Turned F m P m' P') (wk wk' : Work) {k : ℕ}
    (hk : k < m.ix.NK)
    (e : CoOn (m.ix.nk k) (co'.slice (m.ix.i_1k k) (m.ix.I_1k k))
      (turnCo (F k) (m.ix.nk k) (co.slice (m.ix.i_1k k) (m.ix.I_1k k)))) :
    m'.endRec wk' co' k = turnRec (F k) (m.endRec wk co k) := by
  have n1 := c.layout.pos k hk
  have L' := c'.layout
  have F0 := sweptFwd_rel m.g co m.ix wk.f c.layout hk
  have B0 := sweptBwd_rel m.g co m.ix wk.b c.layout hk
  rw [t.ix] at L'
  have F' := CoOn.fwd n1 e (sweptFwd_rel m'.g co' m.ix wk'.f L' hk)
  have B' := CoOn.bwd n1 e (sweptBwd_rel m'.g co' m.ix wk'.b L' hk)
  have E0 := e.E 0 (by omega)
  have En := e.E _ le_rfl
  have D0 := e.D 0 (by omega)
  have Dn := e.D _ le_rfl
  rw [t.g] at F' B'
  unfold Model.endRec Superlink.endRec Model.fwd Model.bwd
  rw [t.em, t.ix, t.g]
  unfold turnCo at *
  unfold turnRec
  cases hF : F k
  · simp only [hF, Bool.false_eq_true, if_false] at *
    obtain ⟨-, u, v, w⟩ := fwdRel_unique F' F0 (m.ix.nk k - 1) (by omega)
    obtain ⟨-, x, y, z⟩ := bwdRel_unique B' B0 0 (by omega)
    cases m.end_method
    · simp only [u, v, w, x, y, z]
    · simp only [u, v, w, x, y, z, E0, En, D0, Dn]
  · simp only [hF, if_true] at *
    obtain ⟨-, u, v, w⟩ := fwdRel_unique F' (mirror_fwd n1 B0) (m.ix.nk k - 1) (by omega)
    obtain ⟨-, x, y, z⟩ := bwdRel_unique B' (mirror_bwd n1 F0) 0 (by omega)
    have e0 : m.ix.nk k - 1 - (m.ix.nk k - 1) = 0 := by omega
    simp only [e0, Nat.sub_zero, mirrorCo, Nat.sub_self] at u v w x y z E0 En D0 Dn
    cases m.end_method
    · simp only [u, v, w, x, y, z]
    · simp only [u, v, w, x, y, z, E0, En, D0, Dn]
      congr 1 <;> ring

/-! ### Head equations -/

theorem same_Hu (c : m.Consistent) (t : Turned F m P m' P') {H H' : ℕ → ℝ} (hH : ∀ j, j < m.M → H' j = H j) {k : ℕ}
    (hk : k < m.ix.NK) : H' (m'.Ju k) = endAt (F k) (H (m.Ju k)) (H (m.Jd k)) := by
  rw [t.Ju k hk]; unfold endAt
  cases F k
  · exact hH _ (c.Ju k hk)
  · exact hH _ (c.Jd k hk)

theorem same_Hd (c : m.Consistent) (t : Turned F m P m' P') {H H' : ℕ → ℝ} (hH : ∀ j, j < m.M → H' j = H j) {k : ℕ}
    (hk : k < m.ix.NK) : H' (m'.Jd k) = endAt (F k) (H (m.Jd k)) (H (m.Ju k)) := by
  rw [t.Jd k hk]; unfold endAt
  cases F k
  · exact hH _ (c.Jd k hk)
  · exact hH _ (c.Ju k hk)

theorem same_headCoef (c : m.Consistent) (t : Turned F m P m' P') (sg : SameGeo F m G G')
    (sc : SameWater F m cur cur') {k : ℕ} (hk : k < m.ix.NK) :
    m'.headCoef G' cur' k = turnHead (F k) (m.headCoef G cur k) := by
  unfold Model.headCoef
  rw [t.g, same_Hu c t sc.H hk, same_Hd c t sc.H hk, sc.Qu k hk, sc.Qd k hk, t.C_uk k hk, t.C_dk k hk, sg.A_u k hk,
    sg.A_d k hk, t.z_uk k hk, t.z_dk k hk]
  unfold endAt turnHead signed1
  cases F k
  · rfl
  · simp only [if_true, headCoefZ, gammaUk, gammaDk, safeDivide_eq, abs_neg]
    congr 1 <;> ring

theorem same_oLin (c : m.Consistent) (t : Turned F m P m' P') (sg : SameGeo F m G G')
    (si : SameInputs F m inp inp') (sc : SameWater F m cur cur') (wk wk' : Work) {k : ℕ}
    (hk : k < m.n_o) : m'.oLin G' inp' wk' cur' k = m.oLin G inp wk cur k := by
  unfold Model.oLin orificeLin
  rw [t.Juo, t.Jdo, sc.H _ (c.Juo k hk), sc.H _ (c.Jdo k hk), sc.Qo k hk, sg.Ao k hk, t.Co,
    si.u_o k hk, t.orifice, t.g]
  exact C11_orifice_no_stale _ _ _ _ _ _ _

theorem same_wLin (c : m.Consistent) (t : Turned F m P m' P')
    (si : SameInputs F m inp inp') (sc : SameWater F m cur cur') (wk wk' : Work) {k : ℕ}
    (hk : k < m.n_w) : m'.wLin inp' wk' cur' k = m.wLin inp wk cur k := by
  unfold Model.wLin
  rw [t.Juw, t.Jdw, sc.H _ (c.Juw k hk), sc.H _ (c.Jdw k hk), sc.Qw k hk, si.u_w k hk, t.weir]
  exact C11_weir_no_stale _ _ _ _ _ _ _

theorem same_pLin (c : m.Consistent) (t : Turned F m P m' P')
    (si : SameInputs F m inp inp') (sc : SameWater F m cur cur') (wk wk' : Work) {k : ℕ}
    (hk : k < m.n_p) : m'.pLin inp' wk' cur' k = m.pLin inp wk cur k := by
  unfold Model.pLin
  rw [t.Jup, t.Jdp, sc.H _ (c.Jup k hk), sc.H _ (c.Jdp k hk), sc.Qp k hk, si.u_p k hk, t.pump]
  exact C11_pump_no_stale _ _ _ _ _ _ _

/-- The coefficients of all superlinks describe the same water. -/
def SameCoef (F : ℕ → Bool) (m : Model) (co co' : Coef ℝ) : Prop :=
  ∀ k, k < m.ix.NK → CoOn (m.ix.nk k) (co'.slice (m.ix.i_1k k) (m.ix.I_1k k))
    (turnCo (F k) (m.ix.nk k) (co.slice (m.ix.i_1k k) (m.ix.I_1k k)))

theorem ctrl_same {C C' : Ctrls ℝ} {M : ℕ} (hn : C'.n = C.n) (hJu : C'.Ju = C.Ju) (hJd : C'.Jd = C.Jd)
    (lu : ∀ k, k < C.n → C.Ju k < M) (ld : ∀ k, k < C.n → C.Jd k < M)
    (hc : ∀ k, k < C.n → C'.alpha k = C.alpha k ∧ C'.beta k = C.beta k ∧ C'.chi k = C.chi k)
    {x x' : ℕ → ℝ} (hx : ∀ j, j < M → x' j = x j) (i : ℕ) : C'.inflow x' i = C.inflow x i := by
  unfold Ctrls.inflow
  rw [hn, hJu, hJd]
  refine Finset.sum_congr rfl fun k hk => ?_
  have hk := Finset.mem_range.mp hk
  obtain ⟨h1, h2, h3⟩ := hc k hk
  have : C'.Q x' k = C.Q x k := by
    unfold Ctrls.Q
    rw [h1, h2, h3, hJu, hJd, hx _ (lu k hk), hx _ (ld k hk)]
  rw [this]

theorem balanced_same (c : m.Consistent) (c' : m'.Consistent) (t : Turned F m P m' P')
    (sg : SameGeo F m G G') (si : SameInputs F m inp inp') (sp : SameWater F m prev prev')
    (sc : SameWater F m cur cur') (e : SameCoef F m co co') (wk wk' : Work) {x x' : ℕ → ℝ}
    (hx : ∀ j, j < m.M → x' j = x j) {i : ℕ} (hi : i < m.M)
    (h : Network.Balanced (m'.net G' inp' wk' cur' co') inp'.dt prev'.H inp'.Q_in x' i) :
    Network.Balanced (m.net G inp wk cur co) inp.dt prev.H inp.Q_in x i := by
  have er := fun k (hk : k < m.ix.NK) => same_endRec c c' t wk wk' hk (e k hk)
  have hu : ∀ k, k < m.ix.NK → (m'.net G' inp' wk' cur' co').links.Qu x' k =
      signed1 (F k) (endAt (F k) ((m.net G inp wk cur co).links.Qu x k) ((m.net G inp wk cur co).links.Qd x k)) :=
    fun k hk => by
      show Quk (m'.endRec wk' co' k) (m'.headCoef G' cur' k) (x' (m'.Ju k)) (x' (m'.Jd k)) = _
      rw [er k hk, same_headCoef c t sg sc hk, same_Hu c t hx hk, same_Hd c t hx hk, turn_Quk]
      rfl
  have hd : ∀ k, k < m.ix.NK → (m'.net G' inp' wk' cur' co').links.Qd x' k =
      signed1 (F k) (endAt (F k) ((m.net G inp wk cur co).links.Qd x k) ((m.net G inp wk cur co).links.Qu x k)) :=
    fun k hk => by
      show Qdk (m'.endRec wk' co' k) (m'.headCoef G' cur' k) (x' (m'.Ju k)) (x' (m'.Jd k)) = _
      rw [er k hk, same_headCoef c t sg sc hk, same_Hu c t hx hk, same_Hd c t hx hk, turn_Qdk]
      rfl
  have hl : (m'.net G' inp' wk' cur' co').links.inflow x' i = (m.net G inp wk cur co).links.inflow x i := by
    unfold Links.inflow
    rw [show (m'.net G' inp' wk' cur' co').links.n = (m.net G inp wk cur co).links.n from congrArg Idx.NK t.ix]
    refine Finset.sum_congr rfl fun k hk => ?_
    have hk : k < m.ix.NK := Finset.mem_range.mp hk
    rw [hu k hk, hd k hk]
    show (if m'.Jd k = i then _ else 0) - (if m'.Ju k = i then _ else 0) =
      (if m.Jd k = i then _ else 0) - (if m.Ju k = i then _ else 0)
    rw [t.Ju k hk, t.Jd k hk]
    unfold endAt signed1
    cases F k
    · rfl
    · simp only [if_true]
      split_ifs <;> ring
  have hxi : (m'.net G' inp' wk' cur' co').links.xiSum i = (m.net G inp wk cur co).links.xiSum i := by
    unfold Links.xiSum
    rw [show (m'.net G' inp' wk' cur' co').links.n = (m.net G inp wk cur co).links.n from congrArg Idx.NK t.ix]
    refine Finset.sum_congr rfl fun k hk => ?_
    have hk : k < m.ix.NK := Finset.mem_range.mp hk
    show (if m'.Ju k = i then xi (m'.dx_uk k) (G'.B_u k) (theta (cur'.H (m'.Ju k)) (m'.z_uk k)) inp'.dt else 0) +
        (if m'.Jd k = i then xi (m'.dx_dk k) (G'.B_d k) (theta (cur'.H (m'.Jd k)) (m'.z_dk k)) inp'.dt else 0) =
      (if m.Ju k = i then xi (m.dx_uk k) (G.B_u k) (theta (cur.H (m.Ju k)) (m.z_uk k)) inp.dt else 0) +
        (if m.Jd k = i then xi (m.dx_dk k) (G.B_d k) (theta (cur.H (m.Jd k)) (m.z_dk k)) inp.dt else 0)
    rw [same_Hu c t sc.H hk, same_Hd c t sc.H hk, t.Ju k hk, t.Jd k hk, t.dx_uk k hk, t.dx_dk k hk, sg.B_u k hk,
      sg.B_d k hk, t.z_uk k hk, t.z_dk k hk, si.dt]
    unfold endAt
    cases F k
    · rfl
    · simp only [if_true]
      exact add_comm _ _
  have ho := ctrl_same (C := (m.net G inp wk cur co).orifices) (C' := (m'.net G' inp' wk' cur' co').orifices)
    t.n_o t.Juo t.Jdo c.Juo c.Jdo
    (fun k hk => by simp only [Model.net]; rw [same_oLin c t sg si sc wk wk' hk]; exact ⟨rfl, rfl, rfl⟩) hx i
  have hw := ctrl_same (C := (m.net G inp wk cur co).weirs) (C' := (m'.net G' inp' wk' cur' co').weirs)
    t.n_w t.Juw t.Jdw c.Juw c.Jdw
    (fun k hk => by simp only [Model.net]; rw [same_wLin c t si sc wk wk' hk]; exact ⟨rfl, rfl, rfl⟩) hx i
  have hp := ctrl_same (C := (m.net G inp wk cur co).pumps) (C' := (m'.net G' inp' wk' cur' co').pumps)
    t.n_p t.Jup t.Jdp c.Jup c.Jdp
    (fun k hk => by simp only [Model.net]; rw [same_pLin c t si sc wk wk' hk]; exact ⟨rfl, rfl, rfl⟩) hx i
  unfold Network.Balanced at h ⊢
  rw [hl, hxi, ho, hw, hp, hx i hi, sp.H i hi, si.dt, si.Q_in i hi] at h
  have hAs : (m'.net G' inp' wk' cur' co').As i = (m.net G inp wk cur co).As i := sg.As i hi
  rw [hAs] at h
  exact h

/-- Heads solved for one model solve the equations of the other. -/
theorem solves_same (c : m.Consistent) (c' : m'.Consistent) (t : Turned F m P m' P')
    (sg : SameGeo F m G G') (si : SameInputs F m inp inp') (sp : SameWater F m prev prev')
    (sc : SameWater F m cur cur') (e : SameCoef F m co co') {wk wk' : Work} (cw : CleanWork m wk.mats)
    (cw' : CleanWork m' wk'.mats) {x' : ℕ → ℝ}
    (h : Solves m'.M (m'.lhs G' inp' wk' cur' co') (m'.rhs G' inp' wk' prev' cur' co') x') :
    Solves m.M (m.lhs G inp wk cur co) (m.rhs G inp wk prev cur co) x' := by
  have h1 := (solves_iff (m'.net G' inp' wk' cur' co') inp'.dt wk'.mats cw'.mats (wired c') prev'.H inp'.Q_in
    (inp'.H_bc.getD cur'.H) x').mp h
  refine (solves_iff (m.net G inp wk cur co) inp.dt wk.mats cw.mats (wired c) prev.H inp.Q_in
    (inp.H_bc.getD cur.H) _).mpr fun i hi => ?_
  have hi : i < m.M := hi
  obtain ⟨hb, hf⟩ := h1 i (by show i < m'.M; rw [t.M]; exact hi)
  have ebc : (m'.net G' inp' wk' cur' co').bc i = (m.net G inp wk cur co).bc i := congrFun t.bc i
  refine ⟨fun hbc => ?_, fun hbc => ?_⟩
  · rw [hb (ebc.trans hbc), si.H_bc]
    cases inp.H_bc with
    | none => exact sc.H i hi
    | some f => rfl
  · exact balanced_same c c' t sg si sp sc e wk wk' (fun _ _ => rfl) hi (hf (ebc.trans hbc))

/-! ### One call -/

/-- The internal solve of a superlink, turned or not; the last stage raises depths to `mn`. -/
theorem same_internals {b : Bool} {g : ℝ} {co : Coef ℝ} {n : ℕ} {T U V W O X Y Z : ℕ → ℝ} (hn : 1 ≤ n)
    (ph : Physical g co n) (F : FwdRel g co n T U V W) (B : BwdRel g co n O X Y Z)
    {T' U' V' W' O' X' Y' Z' : ℕ → ℝ} (F' : FwdRel g (turnCo b n co) n T' U' V' W')
    (B' : BwdRel g (turnCo b n co) n O' X' Y' Z') {mn mx hu hd mn' mx' hu' hd' : ℝ} {back back' : Bool}
    {h Q h' Q' : ℕ → ℝ} (e1 : mn' = mn) (e2 : mx' = mx) (e3 : back' = back) (e4 : hu' = endAt b hu hd)
    (e5 : hd' = endAt b hd hu)
    (R : IntRel U V W X Y Z mn mx hu hd n back h Q) (R' : IntRel U' V' W' X' Y' Z' mn' mx' hu' hd' n back' h' Q')
    (ins : b = true → ∀ j, 1 ≤ j → j < n → mn < (if h j < mn then mn else h j) ∧ (if h j < mn then mn else h j) < mx) :
    (∀ j, j ≤ n → (if h' j < mn' then mn' else h' j) =
      (if h (nodeAt b n j) < mn then mn else h (nodeAt b n j))) ∧
    (∀ j, j < n → Q' j = signed1 b (Q (linkAt b n j))) := by
  subst e1 e2 e3 e4 e5
  cases b
  · obtain ⟨a1, a2⟩ := intRel_unique hn (fun j hj => (fwdRel_unique F' F j hj).2)
      (fun j hj => (bwdRel_unique B' B j hj).2) R' R
    exact ⟨fun j hj => by rw [a1 j hj]; rfl, fun j hj => a2 j hj⟩
  · have ins' : ∀ j, 1 ≤ j → j < n → mn' < h j ∧ h j < mx' := fun j h1 h2 => by
      obtain ⟨i1, i2⟩ := ins rfl j h1 h2
      by_cases hc : h j < mn'
      · rw [if_pos hc] at i1; exact absurd i1 (lt_irrefl _)
      · rw [if_neg hc] at i1 i2; exact ⟨i1, i2⟩
    obtain ⟨a1, a2⟩ := mirror_internals hn ph F B F' B' R R' ins'
    exact ⟨fun j hj => by rw [a1 j hj]; rfl, fun j hj => a2 j hj⟩

theorem same_advance (c : m.Consistent) (c' : m'.Consistent) (t : Turned F m P m' P')
    (ps : PhysicalStep m G inp) (sg : SameGeo F m G G') (si : SameInputs F m inp inp')
    (hco : StepCoefs m.g m.N (m.linkIn G inp prev cur) (m.nodeIn G inp prev) m.nix co)
    (sc : SameWater F m cur cur') (e : SameCoef F m co co') (wk wk' : Work) {x x' : ℕ → ℝ}
    (hx : ∀ j, j < m.M → x' j = x j) (ins : WithinBounds F m (m.advance G inp wk cur co x)) :
    SameWater F m (m.advance G inp wk cur co x) (m'.advance G' inp' wk' cur' co' x') := by
  have hH : ∀ i, i < m.M → clipHead m'.z_inv m'.max_depth x' i = clipHead m.z_inv m.max_depth x i := by
    intro i hi; unfold clipHead; rw [hx i hi, t.z_inv, t.max_depth]
  have er := fun k (hk : k < m.ix.NK) => same_endRec c c' t wk wk' hk (e k hk)
  have L' := c'.layout
  rw [t.ix] at L'
  have inn : ∀ k, k < m.ix.NK → (∀ j, j ≤ m.ix.nk k →
      (m'.advance G' inp' wk' cur' co' x').h (m.ix.I_1k k + j) =
        (m.advance G inp wk cur co x).h (m.ix.I_1k k + nodeAt (F k) (m.ix.nk k) j)) ∧ (∀ j, j < m.ix.nk k →
      (m'.advance G' inp' wk' cur' co' x').Q (m.ix.i_1k k + j) =
        signed1 (F k) ((m.advance G inp wk cur co x).Q (m.ix.i_1k k + linkAt (F k) (m.ix.nk k) j))) := fun k hk => by
    have n1 := c.layout.pos k hk
    have i1 : m'.ix.i_1k k = m.ix.i_1k k := by rw [t.ix]
    have i2 : m'.ix.I_1k k = m.ix.I_1k k := by rw [t.ix]
    have i3 : m'.ix.nk k = m.ix.nk k := by rw [t.ix]
    have i4 : m'.ix.NK = m.ix.NK := by rw [t.ix]
    have R := numbaSolveInternals_spec (m.fwd wk co) (m.bwd wk co) m.min_depth m.max_depth_k
      (fun k => huk (m.endRec wk co k) (m.headCoef G cur k) (clipHead m.z_inv m.max_depth x (m.Ju k))
        (clipHead m.z_inv m.max_depth x (m.Jd k)))
      (fun k => hdk (m.endRec wk co k) (m.headCoef G cur k) (clipHead m.z_inv m.max_depth x (m.Ju k))
        (clipHead m.z_inv m.max_depth x (m.Jd k)))
      m.ix.i_1k m.ix.I_1k m.ix.nk m.ix.NK m.back ⟨cur.h, cur.Q⟩ c.layout k hk
    have R' := numbaSolveInternals_spec (m'.fwd wk' co') (m'.bwd wk' co') m'.min_depth m'.max_depth_k
      (fun k => huk (m'.endRec wk' co' k) (m'.headCoef G' cur' k) (clipHead m'.z_inv m'.max_depth x' (m'.Ju k))
        (clipHead m'.z_inv m'.max_depth x' (m'.Jd k)))
      (fun k => hdk (m'.endRec wk' co' k) (m'.headCoef G' cur' k) (clipHead m'.z_inv m'.max_depth x' (m'.Ju k))
        (clipHead m'.z_inv m'.max_depth x' (m'.Jd k)))
      m'.ix.i_1k m'.ix.I_1k m'.ix.nk m'.ix.NK m'.back ⟨cur'.h, cur'.Q⟩ c'.layout k (i4 ▸ hk)
    have F0 := sweptFwd_rel m.g co m.ix wk.f c.layout hk
    have B0 := sweptBwd_rel m.g co m.ix wk.b c.layout hk
    have F1 := sweptFwd_rel m'.g co' m'.ix wk'.f c'.layout (k := k) (i4 ▸ hk)
    have B1 := sweptBwd_rel m'.g co' m'.ix wk'.b c'.layout (k := k) (i4 ▸ hk)
    beta_reduce at R'
    rw [i1, i2, i3] at F1 B1 R'
    have F2 := CoOn.fwd n1 (e k hk) F1
    have B2 := CoOn.bwd n1 (e k hk) B1
    rw [t.g] at F2 B2
    have e4 : huk (m'.endRec wk' co' k) (m'.headCoef G' cur' k) (clipHead m'.z_inv m'.max_depth x' (m'.Ju k))
        (clipHead m'.z_inv m'.max_depth x' (m'.Jd k)) = endAt (F k)
        (huk (m.endRec wk co k) (m.headCoef G cur k) (clipHead m.z_inv m.max_depth x (m.Ju k))
          (clipHead m.z_inv m.max_depth x (m.Jd k)))
        (hdk (m.endRec wk co k) (m.headCoef G cur k) (clipHead m.z_inv m.max_depth x (m.Ju k))
          (clipHead m.z_inv m.max_depth x (m.Jd k))) := by
      rw [er k hk, same_headCoef c t sg sc hk, same_Hu c t hH hk, same_Hd c t hH hk, turn_huk]
    have e5 : hdk (m'.endRec wk' co' k) (m'.headCoef G' cur' k) (clipHead m'.z_inv m'.max_depth x' (m'.Ju k))
        (clipHead m'.z_inv m'.max_depth x' (m'.Jd k)) = endAt (F k)
        (hdk (m.endRec wk co k) (m.headCoef G cur k) (clipHead m.z_inv m.max_depth x (m.Ju k))
          (clipHead m.z_inv m.max_depth x (m.Jd k)))
        (huk (m.endRec wk co k) (m.headCoef G cur k) (clipHead m.z_inv m.max_depth x (m.Ju k))
          (clipHead m.z_inv m.max_depth x (m.Jd k))) := by
      rw [er k hk, same_headCoef c t sg sc hk, same_Hu c t hH hk, same_Hd c t hH hk, turn_hdk]
    have F3 : FwdRel m.g (turnCo (F k) (m.ix.nk k) (co.slice (m.ix.i_1k k) (m.ix.I_1k k))) (m.ix.nk k)
        (fun j => (m'.fwd wk' co').T (m.ix.i_1k k + j)) (fun j => (m'.fwd wk' co').U (m.ix.I_1k k + j))
        (fun j => (m'.fwd wk' co').V (m.ix.I_1k k + j)) (fun j => (m'.fwd wk' co').W (m.ix.I_1k k + j)) := by
      unfold Model.fwd; rw [t.g]; exact F2
    have B3 : BwdRel m.g (turnCo (F k) (m.ix.nk k) (co.slice (m.ix.i_1k k) (m.ix.I_1k k))) (m.ix.nk k)
        (fun j => (m'.bwd wk' co').O (m.ix.i_1k k + j)) (fun j => (m'.bwd wk' co').X (m.ix.I_1k k + j))
        (fun j => (m'.bwd wk' co').Y (m.ix.I_1k k + j)) (fun j => (m'.bwd wk' co').Z (m.ix.I_1k k + j)) := by
      unfold Model.bwd; rw [t.g]; exact B2
    exact same_internals n1 (physical c ps hco hk) F0 B0 F3 B3 t.md (t.max_depth_k k hk) t.back e4 e5 R R'
      (fun hF => ins k hk hF)
  refine ⟨hH, fun k hk => (inn k hk).1, fun k hk => (inn k hk).2, fun k hk => ?_, fun k hk => ?_,
    fun k hk => ?_, fun k hk => ?_, fun k hk => ?_⟩
  · show Quk (m'.endRec wk' co' k) (m'.headCoef G' cur' k) (clipHead m'.z_inv m'.max_depth x' (m'.Ju k))
      (clipHead m'.z_inv m'.max_depth x' (m'.Jd k)) = _
    rw [er k hk, same_headCoef c t sg sc hk, same_Hu c t hH hk, same_Hd c t hH hk, turn_Quk]
    rfl
  · show Qdk (m'.endRec wk' co' k) (m'.headCoef G' cur' k) (clipHead m'.z_inv m'.max_depth x' (m'.Ju k))
      (clipHead m'.z_inv m'.max_depth x' (m'.Jd k)) = _
    rw [er k hk, same_headCoef c t sg sc hk, same_Hu c t hH hk, same_Hd c t hH hk, turn_Qdk]
    rfl
  all_goals simp only [Model.advance]
  · rw [t.g, sg.Ao k hk, t.Co, t.Juo, t.Jdo, hH _ (c.Juo k hk), hH _ (c.Jdo k hk), si.u_o k hk,
      sg.V _ (c.Juo k hk), sg.V _ (c.Jdo k hk), si.dt, t.orifice]
  · rw [t.Juw, t.Jdw, hH _ (c.Juw k hk), hH _ (c.Jdw k hk), si.u_w k hk, t.weir]
  · rw [t.Jup, t.Jdp, hH _ (c.Jup k hk), hH _ (c.Jdp k hk), si.u_p k hk, t.pump]

/-- One call. -/
theorem same_call (sd : Sound m P) (gi : GoodInputs m P inp) {o o' o1 o1' : Obj} (go : GoodObj m o)
    (c' : m'.Consistent) (cw' : CleanWork m' o'.wk.mats) (lt : LinkTables m P) (lt' : LinkTables m' P')
    (t : Turned F m P m' P') (sh : SameThing F m o o') (si : SameInputs F m inp inp')
    {first : Bool} (h : Calls1 m P first inp o o1) (h' : Calls1 m' P' first inp' o' o1') (ins : WithinBounds F m o1.cur) :
    SameThing F m o1 o1' ∧ CleanWork m' o1'.wk.mats := by
  obtain ⟨Ao, co, x, hA, p, rfl⟩ := h
  obtain ⟨Ao', co', x', hA', p', rfl⟩ := h'
  have c := sd.cons
  have eA : ∀ a, a < m.n_o → Ao' a = Ao a := fun a ha => by
    have e := hA a ha
    have e' := hA' a (by rw [t.n_o]; exact ha)
    have ed : m'.orificeDepth o'.cur a = m.orificeDepth o.cur a := by
      unfold Model.orificeDepth
      rw [t.Juo, t.Jdo, sh.cur.H _ (c.Juo a ha), sh.cur.H _ (c.Jdo a ha), t.orifice]
    rw [sh.Ao a ha, t.oShape, t.oGP, ed, si.u_o a ha, e] at e'
    exact (Except.ok.inj e').symm
  have sg := same_geoOf c lt lt' t sh.thu sh.thd eA sh.cur
  have sp : SameWater F m (if first then o.cur else o.saved) (if first then o'.cur else o'.saved) := by
    cases first
    · exact sh.saved
    · exact sh.cur
  have e : SameCoef F m co co' := fun k hk =>
    same_coefs c c' lt.toStartTables lt'.toStartTables t sg si sp sh.cur p.coefs p'.coefs hk
  have s1 := solves_same c c' t sg si sp sh.cur e go.clean cw' p'.solve
  have ps := physical_geoOf sd gi o.hid Ao go.wet
  have hx := (C06_step c ps go.clean p.coefs _).2 _ _ s1 p.solve
  refine ⟨⟨same_advance c c' t ps sg si p.coefs sh.cur e _ _ hx ins, sp, fun k hk => ?_, fun k hk => ?_,
    fun k hk => ?_⟩, cw'.next⟩
  · simp only [Model.nextHidden, t.ix, upTo_of_lt _ hk]
    rw [same_Hu c t sh.cur.H hk, t.z_uk k hk]
    unfold endAt
    cases F k <;> rfl
  · simp only [Model.nextHidden, t.ix, upTo_of_lt _ hk]
    rw [same_Hd c t sh.cur.H hk, t.z_dk k hk]
    unfold endAt
    cases F k <;> rfl
  · simp only [Model.nextHidden, t.n_o, upTo_of_lt _ hk]
    exact eA k hk

/-- **C111 (what holds).** Which end of a superlink is called upstream makes no difference: through every
sequence of calls with the same inputs, a model and the same model with some superlinks entered from the other
end show the same water — equal heads and control flows, depths in the opposite order, flows in the opposite
order with the opposite sign — provided no interior depth of a turned superlink reaches its bounds. -/
theorem C111_direction_partial (sd : Sound m P) (c' : m'.Consistent) (lt : LinkTables m P)
    (lt' : LinkTables m' P') (t : Turned F m P m' P') {o o' a a' : Obj} (go : GoodObj m o)
    (cw' : CleanWork m' o'.wk.mats) (sh : SameThing F m o o') (r : BothRun F m P m' P' o o' a a') :
    SameThing F m a a' := by
  induction r with
  | nil => exact sh
  | cons si gi h1 h1' ins _ ih =>
    obtain ⟨s1, w1⟩ := same_call sd gi go c' cw' lt lt' t sh si h1 h1' ins
    exact ih (go.next sd.cons h1) w1 s1

end Pipedream.Step
