import Verif.QualityModel

/-! # Lemmas about the water-quality sweeps

The loops have the same shape as the hydraulic sweeps (`SweepLemmas`, `InternalsLemmas`). -/

set_option linter.unusedSectionVars false

namespace Pipedream.Quality

open Pipedream.Network Pipedream.Link Pipedream.Sweep

variable {K : Type*} [Field K] [LinearOrder K]

/-- Relations left by the forward sweep of one superlink (local numbering). -/
structure FwdRel (q : QCoef K) (n : ℕ) (T U V W : ℕ → K) : Prop where
  U0 : U 0 = U_1k (q.chi 0) (q.beta 0)
  V0 : V 0 = V_1k (q.gamma 0) (q.beta 0)
  W0 : W 0 = W_1k (q.alpha 0) (q.beta 0)
  Ts : ∀ j, j + 1 < n → T (j + 1) = T_ik (q.beta (j+1)) (q.alpha (j+1)) (q.mu (j+1)) (q.lam (j+1))
    (q.kappa (j+1)) (U j)
  Us : ∀ j, j + 1 < n → U (j + 1) = U_Ik (q.chi (j+1)) (T (j+1))
  Vs : ∀ j, j + 1 < n → V (j + 1) = V_Ik (q.gamma (j+1)) (T (j+1)) (q.alpha (j+1)) (q.eta (j+1))
    (q.kappa (j+1)) (V j) (q.lam (j+1)) (U j)
  Ws : ∀ j, j + 1 < n → W (j + 1) = W_Ik (q.alpha (j+1)) (q.kappa (j+1)) (W j) (T (j+1)) (q.lam (j+1)) (U j)

/-- Relations left by the backward sweep of one superlink (local numbering), links `lo … n-1`. -/
structure BwdRelFrom (lo : ℕ) (q : QCoef K) (n : ℕ) (O X Y Z : ℕ → K) : Prop where
  Xn : X (n-1) = W_1k (q.alpha (n-1)) (q.beta (n-1))
  Yn : Y (n-1) = V_1k (q.gamma (n-1)) (q.beta (n-1))
  Zn : Z (n-1) = U_1k (q.chi (n-1)) (q.beta (n-1))
  Os : ∀ j, lo ≤ j → j + 1 < n → O j = O_ik (q.beta j) (q.chi j) (q.kappa (j+1)) (q.lam (j+1)) (q.mu (j+1))
    (X (j+1))
  Xs : ∀ j, lo ≤ j → j + 1 < n → X j = X_Ik (q.alpha j) (O j)
  Ys : ∀ j, lo ≤ j → j + 1 < n → Y j = Y_Ik (q.gamma j) (O j) (q.chi j) (q.eta (j+1)) (q.mu (j+1)) (Y (j+1))
    (q.lam (j+1)) (X (j+1))
  Zs : ∀ j, lo ≤ j → j + 1 < n → Z j = Z_Ik (q.chi j) (q.mu (j+1)) (Z (j+1)) (O j) (q.lam (j+1)) (X (j+1))

abbrev BwdRel (q : QCoef K) (n : ℕ) (O X Y Z : ℕ → K) : Prop := BwdRelFrom 0 q n O X Y Z

/-! ### What the loops leave behind -/

theorem fwdSuperlink_spec (q : QCoef K) (n I1 i1 : ℕ) (hn : 1 ≤ n) (s : Fwd K) :
    let s' := fwdSuperlink q n I1 i1 s
    FwdRel (q.slice i1 I1) n (fun j => s'.T (i1 + j)) (fun j => s'.U (I1 + j))
      (fun j => s'.V (I1 + j)) (fun j => s'.W (I1 + j)) ∧ FwdFrame n I1 i1 s s' := by
  obtain ⟨m, rfl⟩ : ∃ m, n = m + 1 := ⟨n - 1, by omega⟩
  have key := forRange_inv
    (fun i s' => FwdRel (q.slice i1 I1) (i + 1) (fun j => s'.T (i1 + j)) (fun j => s'.U (I1 + j))
      (fun j => s'.V (I1 + j)) (fun j => s'.W (I1 + j)) ∧ FwdFrame (i + 1) I1 i1 s s')
    m (fwdNext q I1 i1) (fwdFirst q I1 i1 s) ?_ ?_
  · simpa [fwdSuperlink] using key
  · refine ⟨⟨?_, ?_, ?_, ?_, ?_, ?_, ?_⟩, ?_, ?_⟩
    · simp [fwdFirst, QCoef.slice]
    · simp [fwdFirst, QCoef.slice]
    · simp [fwdFirst, QCoef.slice]
    · intro j hj; omega
    · intro j hj; omega
    · intro j hj; omega
    · intro j hj; omega
    · intro i hi
      have := hi 0 (by omega)
      simp only [fwdFirst]
      rw [upd_other]; simpa using this
    · intro i hi
      have := hi 0 (by omega)
      simp only [fwdFirst]
      rw [upd_other, upd_other, upd_other] <;> simp_all
  · rintro i hi s1 ⟨hrel, hT, hU⟩
    have e1 : I1 + (i + 1) - 1 = I1 + i := by omega
    have e2 : ∀ x : ℕ, x + 1 + i = x + (i + 1) := by intro x; omega
    have oT : ∀ j, j < i + 1 → (fwdNext q I1 i1 i s1).T (i1 + j) = s1.T (i1 + j) := by
      intro j hj; simp only [fwdNext]; rw [upd_other]; omega
    have oU : ∀ j, j < i + 1 → (fwdNext q I1 i1 i s1).U (I1 + j) = s1.U (I1 + j) := by
      intro j hj; simp only [fwdNext]; rw [upd_other]; omega
    have oV : ∀ j, j < i + 1 → (fwdNext q I1 i1 i s1).V (I1 + j) = s1.V (I1 + j) := by
      intro j hj; simp only [fwdNext]; rw [upd_other]; omega
    have oW : ∀ j, j < i + 1 → (fwdNext q I1 i1 i s1).W (I1 + j) = s1.W (I1 + j) := by
      intro j hj; simp only [fwdNext]; rw [upd_other]; omega
    have nT : (fwdNext q I1 i1 i s1).T (i1 + (i + 1)) = T_ik (q.beta (i1 + (i+1)))
        (q.alpha (i1 + (i+1))) (q.mu (I1 + (i+1))) (q.lam (I1 + (i+1))) (q.kappa (I1 + (i+1)))
        (s1.U (I1 + i)) := by
      simp only [fwdNext, e1, e2]; simp
    have nU : (fwdNext q I1 i1 i s1).U (I1 + (i + 1)) = U_Ik (q.chi (i1 + (i+1)))
        ((fwdNext q I1 i1 i s1).T (i1 + (i + 1))) := by
      simp only [fwdNext, e1, e2]; simp
    have nV : (fwdNext q I1 i1 i s1).V (I1 + (i + 1)) = V_Ik (q.gamma (i1 + (i+1)))
        ((fwdNext q I1 i1 i s1).T (i1 + (i + 1))) (q.alpha (i1 + (i+1))) (q.eta (I1 + (i+1)))
        (q.kappa (I1 + (i+1))) (s1.V (I1 + i)) (q.lam (I1 + (i+1))) (s1.U (I1 + i)) := by
      simp only [fwdNext, e1, e2]
      rw [upd_same, upd_same, upd_other _ _ (by omega : I1 + i ≠ I1 + (i+1))]
    have nW : (fwdNext q I1 i1 i s1).W (I1 + (i + 1)) = W_Ik (q.alpha (i1 + (i+1)))
        (q.kappa (I1 + (i+1))) (s1.W (I1 + i)) ((fwdNext q I1 i1 i s1).T (i1 + (i + 1)))
        (q.lam (I1 + (i+1))) (s1.U (I1 + i)) := by
      simp only [fwdNext, e1, e2]
      rw [upd_same, upd_same, upd_other _ _ (by omega : I1 + i ≠ I1 + (i+1))]
    refine ⟨⟨?_, ?_, ?_, ?_, ?_, ?_, ?_⟩, ?_, ?_⟩
    · simp only [oU 0 (by omega)]; exact hrel.U0
    · simp only [oV 0 (by omega)]; exact hrel.V0
    · simp only [oW 0 (by omega)]; exact hrel.W0
    · intro j hj
      rcases Nat.lt_or_ge (j + 1) (i + 1) with h | h
      · simp only [oT _ h, oU j (by omega)]; exact hrel.Ts j h
      · obtain rfl : j = i := by omega
        simp only [nT, oU j (by omega)]; rfl
    · intro j hj
      rcases Nat.lt_or_ge (j + 1) (i + 1) with h | h
      · simp only [oT _ h, oU _ h]; exact hrel.Us j h
      · obtain rfl : j = i := by omega
        simp only [nU]; rfl
    · intro j hj
      rcases Nat.lt_or_ge (j + 1) (i + 1) with h | h
      · simp only [oT _ h, oU j (by omega), oV _ h, oV j (by omega)]; exact hrel.Vs j h
      · obtain rfl : j = i := by omega
        simp only [nV, oU j (by omega), oV j (by omega)]; rfl
    · intro j hj
      rcases Nat.lt_or_ge (j + 1) (i + 1) with h | h
      · simp only [oT _ h, oU j (by omega), oW _ h, oW j (by omega)]; exact hrel.Ws j h
      · obtain rfl : j = i := by omega
        simp only [nW, oU j (by omega), oW j (by omega)]; rfl
    · intro i' hi'
      have h1 := hi' (i + 1) (by omega)
      rw [← hT i' (fun j hj => hi' j (by omega))]
      simp only [fwdNext]; rw [upd_other]; omega
    · intro I' hI'
      have h1 := hI' (i + 1) (by omega)
      obtain ⟨hu, hv, hw⟩ := hU I' (fun j hj => hI' j (by omega))
      rw [← hu, ← hv, ← hw]
      simp only [fwdNext]; rw [upd_other, upd_other, upd_other] <;> first | omega | simp

theorem bwdSuperlink_spec (q : QCoef K) (n I1 i1 : ℕ) (hn : 1 ≤ n) (s : Bwd K) :
    let s' := bwdSuperlink q n (I1 + n - 1) (i1 + n - 1) s
    BwdRel (q.slice i1 I1) n (fun j => s'.O (i1 + j)) (fun j => s'.X (I1 + j))
      (fun j => s'.Y (I1 + j)) (fun j => s'.Z (I1 + j)) ∧ BwdFrame n I1 i1 s s' := by
  obtain ⟨m, rfl⟩ : ∃ m, n = m + 1 := ⟨n - 1, by omega⟩
  have a1 : I1 + (m + 1) - 1 = I1 + m := by omega
  have a2 : i1 + (m + 1) - 1 = i1 + m := by omega
  rw [a1, a2]
  have key := forRange_inv
    (fun i s' => BwdRelFrom (m - i) (q.slice i1 I1) (m + 1) (fun j => s'.O (i1 + j))
      (fun j => s'.X (I1 + j)) (fun j => s'.Y (I1 + j)) (fun j => s'.Z (I1 + j)) ∧
      BwdFrame (m + 1) I1 i1 s s')
    m (bwdNext q (I1 + m) (i1 + m)) (bwdFirst q (I1 + m) (i1 + m) s) ?_ ?_
  · simpa [bwdSuperlink] using key
  · refine ⟨⟨?_, ?_, ?_, ?_, ?_, ?_, ?_⟩, ?_, ?_⟩
    · simp [bwdFirst, QCoef.slice]
    · simp [bwdFirst, QCoef.slice]
    · simp [bwdFirst, QCoef.slice]
    · intro j hl hj; omega
    · intro j hl hj; omega
    · intro j hl hj; omega
    · intro j hl hj; omega
    · intro i hi
      have := hi m (by omega)
      simp only [bwdFirst]
      rw [upd_other]; simpa using this
    · intro i hi
      have := hi m (by omega)
      simp only [bwdFirst]
      rw [upd_other, upd_other, upd_other] <;> simp_all
  · rintro i hi s1 ⟨hrel, hT, hU⟩
    -- the link written in this iteration has local number `r = m - 1 - i`
    obtain ⟨r, hr⟩ : ∃ r, m = r + 1 + i := ⟨m - 1 - i, by omega⟩
    have e1 : ∀ x : ℕ, x + m - 1 - i = x + r := by intro x; omega
    have e3 : m - i = r + 1 := by omega
    have e4 : m - (i + 1) = r := by omega
    rw [e3] at hrel
    rw [e4]
    have oO : ∀ j, j ≠ r → (bwdNext q (I1 + m) (i1 + m) i s1).O (i1 + j) = s1.O (i1 + j) := by
      intro j hj; simp only [bwdNext, e1]; rw [upd_other]; omega
    have oX : ∀ j, j ≠ r → (bwdNext q (I1 + m) (i1 + m) i s1).X (I1 + j) = s1.X (I1 + j) := by
      intro j hj; simp only [bwdNext, e1]; rw [upd_other]; omega
    have oY : ∀ j, j ≠ r → (bwdNext q (I1 + m) (i1 + m) i s1).Y (I1 + j) = s1.Y (I1 + j) := by
      intro j hj; simp only [bwdNext, e1]; rw [upd_other]; omega
    have oZ : ∀ j, j ≠ r → (bwdNext q (I1 + m) (i1 + m) i s1).Z (I1 + j) = s1.Z (I1 + j) := by
      intro j hj; simp only [bwdNext, e1]; rw [upd_other]; omega
    have nO : (bwdNext q (I1 + m) (i1 + m) i s1).O (i1 + r) = O_ik (q.beta (i1 + r))
        (q.chi (i1 + r)) (q.kappa (I1 + (r+1))) (q.lam (I1 + (r+1))) (q.mu (I1 + (r+1)))
        (s1.X (I1 + (r+1))) := by
      simp only [bwdNext, e1]; simp [add_assoc]
    have nX : (bwdNext q (I1 + m) (i1 + m) i s1).X (I1 + r) = X_Ik (q.alpha (i1 + r))
        ((bwdNext q (I1 + m) (i1 + m) i s1).O (i1 + r)) := by
      simp only [bwdNext, e1]; simp
    have nY : (bwdNext q (I1 + m) (i1 + m) i s1).Y (I1 + r) = Y_Ik (q.gamma (i1 + r))
        ((bwdNext q (I1 + m) (i1 + m) i s1).O (i1 + r)) (q.chi (i1 + r)) (q.eta (I1 + (r+1)))
        (q.mu (I1 + (r+1))) (s1.Y (I1 + (r+1))) (q.lam (I1 + (r+1))) (s1.X (I1 + (r+1))) := by
      simp only [bwdNext, e1]
      rw [upd_same, upd_same, upd_other _ _ (by omega : I1 + r + 1 ≠ I1 + r)]; simp [add_assoc]
    have nZ : (bwdNext q (I1 + m) (i1 + m) i s1).Z (I1 + r) = Z_Ik (q.chi (i1 + r))
        (q.mu (I1 + (r+1))) (s1.Z (I1 + (r+1))) ((bwdNext q (I1 + m) (i1 + m) i s1).O (i1 + r))
        (q.lam (I1 + (r+1))) (s1.X (I1 + (r+1))) := by
      simp only [bwdNext, e1]
      rw [upd_same, upd_same, upd_other _ _ (by omega : I1 + r + 1 ≠ I1 + r)]; simp [add_assoc]
    have hm : m ≠ r := by omega
    refine ⟨⟨?_, ?_, ?_, ?_, ?_, ?_, ?_⟩, ?_, ?_⟩
    · simp only [Nat.add_sub_cancel, oX m hm]; exact hrel.Xn
    · simp only [Nat.add_sub_cancel, oY m hm]; exact hrel.Yn
    · simp only [Nat.add_sub_cancel, oZ m hm]; exact hrel.Zn
    · intro j hl hj
      rcases Nat.eq_or_lt_of_le hl with h | h
      · subst h; simp only [nO, oX (r + 1) (by omega)]; rfl
      · simp only [oO j (by omega), oX (j+1) (by omega)]; exact hrel.Os j h hj
    · intro j hl hj
      rcases Nat.eq_or_lt_of_le hl with h | h
      · subst h; simp only [nX]; rfl
      · simp only [oO j (by omega), oX j (by omega)]; exact hrel.Xs j h hj
    · intro j hl hj
      rcases Nat.eq_or_lt_of_le hl with h | h
      · subst h; simp only [nY, oX (r + 1) (by omega), oY (r + 1) (by omega)]; rfl
      · simp only [oO j (by omega), oX (j+1) (by omega), oY j (by omega), oY (j+1) (by omega)]
        exact hrel.Ys j h hj
    · intro j hl hj
      rcases Nat.eq_or_lt_of_le hl with h | h
      · subst h; simp only [nZ, oX (r + 1) (by omega), oZ (r + 1) (by omega)]; rfl
      · simp only [oO j (by omega), oX (j+1) (by omega), oZ j (by omega), oZ (j+1) (by omega)]
        exact hrel.Zs j h hj
    · intro i' hi'
      have h1 := hi' r (by omega)
      rw [← hT i' hi']
      simp only [bwdNext, e1]; rw [upd_other]; omega
    · intro I' hI'
      have h1 := hI' r (by omega)
      obtain ⟨hu, hv, hw⟩ := hU I' hI'
      rw [← hu, ← hv, ← hw]
      simp only [bwdNext, e1]; rw [upd_other, upd_other, upd_other] <;> first | omega | simp

/-- The whole forward loop: every superlink's slice satisfies the recurrences of its own data. -/
theorem forwardRecurrence_spec (q : QCoef K) (NK : ℕ) (nk I_1k i_1k : ℕ → ℕ) (s : Fwd K)
    (L : Layout NK nk I_1k i_1k) :
    let s' := forwardRecurrence q NK nk I_1k i_1k s
    ∀ k, k < NK → FwdRel (q.slice (i_1k k) (I_1k k)) (nk k) (fun j => s'.T (i_1k k + j))
      (fun j => s'.U (I_1k k + j)) (fun j => s'.V (I_1k k + j)) (fun j => s'.W (I_1k k + j)) := by
  intro s' k hk
  have key := forRange_inv
    (fun m s' => m ≤ NK → ∀ k, k < m → FwdRel (q.slice (i_1k k) (I_1k k)) (nk k)
      (fun j => s'.T (i_1k k + j)) (fun j => s'.U (I_1k k + j)) (fun j => s'.V (I_1k k + j))
      (fun j => s'.W (I_1k k + j)))
    NK (fun k s => fwdSuperlink q (nk k) (I_1k k) (i_1k k) s) s
    (by intro _ k hk; omega) ?_
  · exact key le_rfl k hk
  · intro m hm s1 ih _ k hk
    obtain ⟨hrel, hfT, hfU⟩ := fwdSuperlink_spec q (nk m) (I_1k m) (i_1k m) (L.pos m hm) s1
    rcases Nat.lt_succ_iff_lt_or_eq.mp hk with h | h
    · have hk' : k < NK := by omega
      have ih' := ih (by omega) k h
      have fT : ∀ j, j < nk k → (fwdSuperlink q (nk m) (I_1k m) (i_1k m) s1).T (i_1k k + j)
          = s1.T (i_1k k + j) := fun j hj =>
        hfT _ (fun j' hj' => L.links_disjoint k m hk' hm (by omega) j j' hj hj')
      have fU := fun j (hj : j < nk k) => hfU (I_1k k + j)
        (fun j' hj' => L.junctions_disjoint k m hk' hm (by omega) j j' hj.le hj'.le)
      have p := L.pos k hk'
      constructor
      · simp only [(fU 0 p).1]; exact ih'.U0
      · simp only [(fU 0 p).2.1]; exact ih'.V0
      · simp only [(fU 0 p).2.2]; exact ih'.W0
      · intro j hj; simp only [fT _ hj, (fU j (by omega)).1]; exact ih'.Ts j hj
      · intro j hj; simp only [fT _ hj, (fU _ hj).1]; exact ih'.Us j hj
      · intro j hj
        simp only [fT _ hj, (fU j (by omega)).1, (fU j (by omega)).2.1, (fU _ hj).2.1]
        exact ih'.Vs j hj
      · intro j hj
        simp only [fT _ hj, (fU j (by omega)).1, (fU j (by omega)).2.2, (fU _ hj).2.2]
        exact ih'.Ws j hj
    · subst h; exact hrel

/-- The whole backward loop. The code passes `_I_Nk`, `_i_nk` (last interior junction / last link). -/
theorem backwardRecurrence_spec (q : QCoef K) (NK : ℕ) (nk I_1k i_1k I_Nk i_nk : ℕ → ℕ)
    (s : Bwd K) (L : Layout NK nk I_1k i_1k)
    (hI : ∀ k, k < NK → I_Nk k = I_1k k + nk k - 1) (hi : ∀ k, k < NK → i_nk k = i_1k k + nk k - 1) :
    let s' := backwardRecurrence q NK nk I_Nk i_nk s
    ∀ k, k < NK → BwdRel (q.slice (i_1k k) (I_1k k)) (nk k) (fun j => s'.O (i_1k k + j))
      (fun j => s'.X (I_1k k + j)) (fun j => s'.Y (I_1k k + j)) (fun j => s'.Z (I_1k k + j)) := by
  intro s' k hk
  have key := forRange_inv
    (fun m s' => m ≤ NK → ∀ k, k < m → BwdRel (q.slice (i_1k k) (I_1k k)) (nk k)
      (fun j => s'.O (i_1k k + j)) (fun j => s'.X (I_1k k + j)) (fun j => s'.Y (I_1k k + j))
      (fun j => s'.Z (I_1k k + j)))
    NK (fun k s => bwdSuperlink q (nk k) (I_Nk k) (i_nk k) s) s
    (by intro _ k hk; omega) ?_
  · exact key le_rfl k hk
  · intro m hm s1 ih _ k hk
    rw [hI m hm, hi m hm]
    obtain ⟨hrel, hfT, hfU⟩ := bwdSuperlink_spec q (nk m) (I_1k m) (i_1k m) (L.pos m hm) s1
    rcases Nat.lt_succ_iff_lt_or_eq.mp hk with h | h
    · have hk' : k < NK := by omega
      have ih' := ih (by omega) k h
      have fT := fun j (hj : j < nk k) => hfT (i_1k k + j)
        (fun j' hj' => L.links_disjoint k m hk' hm (by omega) j j' hj hj')
      have fU := fun j (hj : j < nk k) => hfU (I_1k k + j)
        (fun j' hj' => L.junctions_disjoint k m hk' hm (by omega) j j' hj.le hj'.le)
      have p := L.pos k hk'
      have hq : nk k - 1 < nk k := by omega
      constructor
      · simp only [(fU _ hq).1]; exact ih'.Xn
      · simp only [(fU _ hq).2.1]; exact ih'.Yn
      · simp only [(fU _ hq).2.2]; exact ih'.Zn
      · intro j hl hj; simp only [fT j (by omega), (fU _ hj).1]; exact ih'.Os j hl hj
      · intro j hl hj
        simp only [fT j (by omega), (fU j (by omega)).1]; exact ih'.Xs j hl hj
      · intro j hl hj
        simp only [fT j (by omega), (fU j (by omega)).2.1, (fU _ hj).1, (fU _ hj).2.1]
        exact ih'.Ys j hl hj
      · intro j hl hj
        simp only [fT j (by omega), (fU j (by omega)).2.2, (fU _ hj).1, (fU _ hj).2.2]
        exact ih'.Zs j hl hj
    · subst h; exact hrel


/-! ### Internal solve -/

/-- Relations between the entries left by the internal solve of one superlink (local numbering):
link values come from the forward relation, junction values from inverting the backward relation with
the unlimited link value. -/
structure IntRelFrom (m : ℕ) (U V W X Y Z : ℕ → K) (lo : K) (hi : Option K) (c1 cN : K) (n : ℕ)
    (cI ci : ℕ → K) : Prop where
  first : cI 0 = c1
  last : cI n = cN
  links : ∀ j, m ≤ j → 1 ≤ j → j < n → ci j = limit lo hi (c_i_f (cI (j + 1)) c1 (U j) (V j) (W j))
  nodes : ∀ j, m ≤ j → 1 ≤ j → j < n → cI j = limit lo hi
    (c_I_b (c_i_f (cI (j + 1)) c1 (U j) (V j) (W j)) cN (X j) (Y j) (Z j))

/-- The complete set of relations, including the first link. -/
structure IntRel (U V W X Y Z : ℕ → K) (lo : K) (hi : Option K) (c1 cN : K) (n : ℕ) (back : Bool)
    (cI ci : ℕ → K) : Prop extends IntRelFrom 1 U V W X Y Z lo hi c1 cN n cI ci where
  link0 : ci 0 = if back then c_i_b c1 cN (X 0) (Y 0) (Z 0) else c_i_f (cI 1) c1 (U 0) (V 0) (W 0)

/-- Nothing outside the superlink is written. -/
def CCFrame (n I1 i1 : ℕ) (s s' : CC K) : Prop :=
  (∀ i, (∀ j, j < n → i ≠ i1 + j) → s'.i i = s.i i) ∧
  (∀ I, (∀ j, j ≤ n → I ≠ I1 + j) → s'.I I = s.I I)

theorem internalsSuperlink_spec (f : Fwd K) (bw : Bwd K) (lo : K) (hi : Option K) (c1 cN : K) (n I1 i1 : ℕ)
    (back : Bool) (s : CC K) (hn : 1 ≤ n) :
    let s' := internalsSuperlink f bw lo hi c1 cN n I1 i1 back s
    IntRel (fun j => f.U (I1 + j)) (fun j => f.V (I1 + j)) (fun j => f.W (I1 + j))
      (fun j => bw.X (I1 + j)) (fun j => bw.Y (I1 + j)) (fun j => bw.Z (I1 + j)) lo hi c1 cN n back
      (fun j => s'.I (I1 + j)) (fun j => s'.i (i1 + j)) ∧ CCFrame n I1 i1 s s' := by
  obtain ⟨m, rfl⟩ : ∃ m, n = m + 1 := ⟨n - 1, by omega⟩
  have a1 : I1 + (m + 1) - 1 = I1 + m := by omega
  have a2 : i1 + (m + 1) - 1 = i1 + m := by omega
  have key := forRange_inv
    (fun i s' => IntRelFrom (m + 1 - i) (fun j => f.U (I1 + j)) (fun j => f.V (I1 + j))
      (fun j => f.W (I1 + j))
      (fun j => bw.X (I1 + j)) (fun j => bw.Y (I1 + j)) (fun j => bw.Z (I1 + j)) lo hi c1 cN (m + 1)
      (fun j => s'.I (I1 + j)) (fun j => s'.i (i1 + j)) ∧ CCFrame (m + 1) I1 i1 s s')
    m (internalsNext f bw lo hi c1 cN (I1 + m) (i1 + m))
    { s with I := upd (upd s.I I1 c1) (I1 + (m + 1)) cN } ?_ ?_
  · obtain ⟨hr, hQ, hh⟩ := key
    have e : m + 1 - m = 1 := by omega
    rw [e] at hr
    simp only [internalsSuperlink, a1, a2, Nat.add_sub_cancel]
    cases back
    · refine ⟨⟨⟨hr.first, hr.last, ?_, ?_⟩, ?_⟩, ?_, ?_⟩
      · intro j h1 h2 h3
        have := hr.links j h1 h2 h3
        simp only [Bool.false_eq_true, if_false]
        rw [upd_other _ _ (by omega)]; exact this
      · intro j h1 h2 h3
        exact hr.nodes j h1 h2 h3
      · simp
      · intro i hi
        have := hi 0 (by omega)
        simp only [Bool.false_eq_true, if_false]
        rw [upd_other _ _ (by simpa using this)]; exact hQ i hi
      · exact hh
    · refine ⟨⟨⟨hr.first, hr.last, ?_, ?_⟩, ?_⟩, ?_, ?_⟩
      · intro j h1 h2 h3
        have := hr.links j h1 h2 h3
        simp only [] at this ⊢
        simp only [if_true]
        rw [upd_other _ _ (by omega)]; exact this
      · intro j h1 h2 h3
        exact hr.nodes j h1 h2 h3
      · have := hr.first
        simp only [add_zero] at this
        simp [this]
      · intro i hi
        have := hi 0 (by omega)
        simp only [if_true]
        rw [upd_other _ _ (by simpa using this)]; exact hQ i hi
      · exact hh
  · refine ⟨⟨?_, ?_, ?_, ?_⟩, ?_, ?_⟩
    · simp only [add_zero]; rw [upd_other _ _ (by omega)]; simp
    · simp
    · intro j h1 h2 h3; omega
    · intro j h1 h2 h3; omega
    · intro i hi; rfl
    · intro I hI
      have h1 := hI 0 (by omega)
      have h2 := hI (m + 1) (by omega)
      simp only
      rw [upd_other _ _ h2, upd_other _ _ (by simpa using h1)]
  · rintro i hi' s1 ⟨hrel, hQ, hh⟩
    obtain ⟨r, hr⟩ : ∃ r, m = r + i := ⟨m - i, by omega⟩
    have e1 : ∀ x : ℕ, x + m - i = x + r := by intro x; omega
    have e3 : m + 1 - i = r + 1 := by omega
    have e4 : m + 1 - (i + 1) = r := by omega
    rw [e3] at hrel
    rw [e4]
    have oQ : ∀ j, j ≠ r → (internalsNext f bw lo hi c1 cN (I1 + m) (i1 + m) i s1).i (i1 + j)
        = s1.i (i1 + j) := by
      intro j hj; simp only [internalsNext, e1]; rw [upd_other]; omega
    have oh : ∀ j, j ≠ r → (internalsNext f bw lo hi c1 cN (I1 + m) (i1 + m) i s1).I (I1 + j)
        = s1.I (I1 + j) := by
      intro j hj; simp only [internalsNext, e1]; rw [upd_other]; omega
    have nQ : (internalsNext f bw lo hi c1 cN (I1 + m) (i1 + m) i s1).i (i1 + r)
        = limit lo hi (c_i_f (s1.I (I1 + (r + 1))) c1 (f.U (I1 + r)) (f.V (I1 + r)) (f.W (I1 + r))) := by
      simp only [internalsNext, e1]; simp [add_assoc]
    have nh : (internalsNext f bw lo hi c1 cN (I1 + m) (i1 + m) i s1).I (I1 + r)
        = limit lo hi (c_I_b (c_i_f (s1.I (I1 + (r + 1))) c1 (f.U (I1 + r)) (f.V (I1 + r)) (f.W (I1 + r)))
            cN (bw.X (I1 + r)) (bw.Y (I1 + r)) (bw.Z (I1 + r))) := by
      simp only [internalsNext, e1]; simp [add_assoc]
    refine ⟨⟨?_, ?_, ?_, ?_⟩, ?_, ?_⟩
    · rw [oh 0 (by omega)]; exact hrel.first
    · rw [oh (m + 1) (by omega)]; exact hrel.last
    · intro j h1 h2 h3
      rcases Nat.eq_or_lt_of_le h1 with h | h
      · subst h; rw [nQ, oh (r + 1) (by omega)]
      · rw [oQ j (by omega), oh (j + 1) (by omega)]; exact hrel.links j h h2 h3
    · intro j h1 h2 h3
      rcases Nat.eq_or_lt_of_le h1 with h | h
      · subst h; rw [nh, oh (r + 1) (by omega)]
      · rw [oh j (by omega), oh (j + 1) (by omega)]; exact hrel.nodes j h h2 h3
    · intro i' hi'
      have h1 := hi' r (by omega)
      rw [← hQ i' hi']
      simp only [internalsNext, e1]; rw [upd_other]; omega
    · intro I' hI'
      have h1 := hI' r (by omega)
      rw [← hh I' hI']
      simp only [internalsNext, e1]; rw [upd_other]; omega

theorem numbaSolveInternals_spec (f : Fwd K) (bw : Bwd K) (lo : K) (hi : Option K) (c1 cN : ℕ → K)
    (i_1k I_1k nk : ℕ → ℕ) (NK : ℕ) (back : Bool) (s : CC K) (L : Layout NK nk I_1k i_1k) :
    let s' := numbaSolveInternals f bw lo hi c1 cN i_1k I_1k nk NK back s
    ∀ k, k < NK → IntRel (fun j => f.U (I_1k k + j)) (fun j => f.V (I_1k k + j))
      (fun j => f.W (I_1k k + j)) (fun j => bw.X (I_1k k + j)) (fun j => bw.Y (I_1k k + j))
      (fun j => bw.Z (I_1k k + j)) lo hi (c1 k) (cN k) (nk k) back
      (fun j => s'.I (I_1k k + j)) (fun j => s'.i (i_1k k + j)) := by
  intro s' k hk
  have key := forRange_inv
    (fun m s' => m ≤ NK → ∀ k, k < m → IntRel (fun j => f.U (I_1k k + j)) (fun j => f.V (I_1k k + j))
      (fun j => f.W (I_1k k + j)) (fun j => bw.X (I_1k k + j)) (fun j => bw.Y (I_1k k + j))
      (fun j => bw.Z (I_1k k + j)) lo hi (c1 k) (cN k) (nk k) back
      (fun j => s'.I (I_1k k + j)) (fun j => s'.i (i_1k k + j)))
    NK (fun k s => internalsSuperlink f bw lo hi (c1 k) (cN k) (nk k) (I_1k k) (i_1k k) back s) s
    (by intro _ k hk; omega) ?_
  · exact key le_rfl k hk
  · intro m hm s1 ih _ k hk
    obtain ⟨hrel, hfQ, hfh⟩ := internalsSuperlink_spec f bw lo hi (c1 m) (cN m) (nk m) (I_1k m)
      (i_1k m) back s1 (L.pos m hm)
    rcases Nat.lt_succ_iff_lt_or_eq.mp hk with h | h
    · have hk' : k < NK := by omega
      have ih' := ih (by omega) k h
      have fQ := fun j (hj : j < nk k) => hfQ (i_1k k + j)
        (fun j' hj' => L.links_disjoint k m hk' hm (by omega) j j' hj hj')
      have fh := fun j (hj : j ≤ nk k) => hfh (I_1k k + j)
        (fun j' hj' => L.junctions_disjoint k m hk' hm (by omega) j j' hj hj')
      have p := L.pos k hk'
      refine ⟨⟨?_, ?_, ?_, ?_⟩, ?_⟩
      · rw [fh 0 (by omega)]; exact ih'.first
      · rw [fh _ le_rfl]; exact ih'.last
      · intro j h1 h2 h3; rw [fQ j h3, fh (j+1) (by omega)]; exact ih'.links j h1 h2 h3
      · intro j h1 h2 h3; rw [fh j (by omega), fh (j+1) (by omega)]; exact ih'.nodes j h1 h2 h3
      · rw [fQ 0 p, fh 1 p]; exact ih'.link0
    · subst h; exact hrel

end Pipedream.Quality
