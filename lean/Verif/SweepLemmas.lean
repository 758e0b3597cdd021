import Verif.SweepSpec

/-! # Lemmas about the sweeps -/

namespace Pipedream.Sweep

variable {K : Type*} [Field K] [LinearOrder K]

/-- Relations between the entries left by the forward sweep of one superlink (local numbering). -/
structure FwdRel (g : K) (co : Coef K) (n : ℕ) (T U V W : ℕ → K) : Prop where
  T0 : T 0 = T_1k (co.a 0) (co.b 0) (co.c 0)
  U0 : U 0 = U_1k (co.E 1) (co.c 0) (co.A 0) (T 0) g
  V0 : V 0 = V_1k (co.P 0) (co.D 1) (co.c 0) (T 0) (co.a 0) (co.D 0)
  W0 : W 0 = W_1k (co.A 0) (T 0) (co.a 0) (co.E 0) g
  Ts : ∀ j, j + 1 < n → T (j + 1) = T_ik (co.a (j+1)) (co.b (j+1)) (co.c (j+1)) (co.A (j+1))
    (co.E (j+1)) (U j) g
  Us : ∀ j, j + 1 < n → U (j + 1) = U_Ik (co.E (j+2)) (co.c (j+1)) (co.A (j+1)) (T (j+1)) g
  Vs : ∀ j, j + 1 < n → V (j + 1) = V_Ik (co.P (j+1)) (co.a (j+1)) (co.D (j+1)) (co.D (j+2))
    (co.c (j+1)) (co.A (j+1)) (co.E (j+1)) (V j) (U j) (T (j+1)) g
  Ws : ∀ j, j + 1 < n → W (j + 1) = W_Ik (co.A (j+1)) (co.E (j+1)) (co.a (j+1)) (W j) (U j)
    (T (j+1)) g

/-- Relations between the entries left by the backward sweep of one superlink (local numbering),
for links `lo … n-1`. -/
structure BwdRelFrom (lo : ℕ) (g : K) (co : Coef K) (n : ℕ) (O X Y Z : ℕ → K) : Prop where
  On : O (n-1) = O_nk (co.a (n-1)) (co.b (n-1)) (co.c (n-1))
  Xn : X (n-1) = X_Nk (co.A (n-1)) (co.E (n-1)) (co.a (n-1)) (O (n-1)) g
  Yn : Y (n-1) = Y_Nk (co.P (n-1)) (co.D (n-1)) (co.a (n-1)) (O (n-1)) (co.c (n-1)) (co.D n)
  Zn : Z (n-1) = Z_Nk (co.A (n-1)) (O (n-1)) (co.c (n-1)) (co.E n) g
  Os : ∀ j, lo ≤ j → j + 1 < n → O j = O_ik (co.a j) (co.b j) (co.c j) (co.A j) (co.E (j+1)) (X (j+1)) g
  Xs : ∀ j, lo ≤ j → j + 1 < n → X j = X_Ik (co.A j) (co.E j) (co.a j) (O j) g
  Ys : ∀ j, lo ≤ j → j + 1 < n → Y j = Y_Ik (co.P j) (co.a j) (co.D j) (co.D (j+1)) (co.c j) (co.A j)
    (co.E (j+1)) (Y (j+1)) (X (j+1)) (O j) g
  Zs : ∀ j, lo ≤ j → j + 1 < n → Z j = Z_Ik (co.A j) (co.E (j+1)) (co.c j) (Z (j+1)) (X (j+1)) (O j) g

/-- All links. -/
abbrev BwdRel (g : K) (co : Coef K) (n : ℕ) (O X Y Z : ℕ → K) : Prop := BwdRelFrom 0 g co n O X Y Z

/-! ### What the loops leave behind -/

/-- The forward state agrees with `s'` outside links `[i1, i1+n)` / junctions `[I1, I1+n)`. -/
def FwdFrame (n I1 i1 : ℕ) (s s' : Fwd K) : Prop :=
  (∀ i, (∀ j, j < n → i ≠ i1 + j) → s'.T i = s.T i) ∧
  (∀ I, (∀ j, j < n → I ≠ I1 + j) → s'.U I = s.U I ∧ s'.V I = s.V I ∧ s'.W I = s.W I)

theorem fwdSuperlink_spec (g : K) (co : Coef K) (n I1 i1 : ℕ) (hn : 1 ≤ n) (s : Fwd K) :
    let s' := fwdSuperlink g co n I1 i1 s
    FwdRel g (co.slice i1 I1) n (fun j => s'.T (i1 + j)) (fun j => s'.U (I1 + j))
      (fun j => s'.V (I1 + j)) (fun j => s'.W (I1 + j)) ∧ FwdFrame n I1 i1 s s' := by
  obtain ⟨m, rfl⟩ : ∃ m, n = m + 1 := ⟨n - 1, by omega⟩
  have key := forRange_inv
    (fun i s' => FwdRel g (co.slice i1 I1) (i + 1) (fun j => s'.T (i1 + j)) (fun j => s'.U (I1 + j))
      (fun j => s'.V (I1 + j)) (fun j => s'.W (I1 + j)) ∧ FwdFrame (i + 1) I1 i1 s s')
    m (fwdNext g co I1 i1) (fwdFirst g co I1 i1 s) ?_ ?_
  · simpa [fwdSuperlink] using key
  · refine ⟨⟨?_, ?_, ?_, ?_, ?_, ?_, ?_, ?_⟩, ?_, ?_⟩
    · simp [fwdFirst, Coef.slice]
    · simp [fwdFirst, Coef.slice]
    · simp [fwdFirst, Coef.slice]
    · simp [fwdFirst, Coef.slice]
    · intro j hj; omega
    · intro j hj; omega
    · intro j hj; omega
    · intro j hj; omega
    · intro i hi
      have := hi 0 (by omega)
      simp only [fwdFirst]
      rw [upd_other]; simpa using this
    · intro i hi
      have := hi 0 (by omega)
      simp only [fwdFirst]
      rw [upd_other, upd_other, upd_other] <;> simp_all
  · rintro i hi s1 ⟨hrel, hT, hU⟩
    have e1 : I1 + (i + 1) - 1 = I1 + i := by omega
    have e2 : ∀ x : ℕ, x + 1 + i = x + (i + 1) := by intro x; omega
    have oT : ∀ j, j < i + 1 → (fwdNext g co I1 i1 i s1).T (i1 + j) = s1.T (i1 + j) := by
      intro j hj; simp only [fwdNext]; rw [upd_other]; omega
    have oU : ∀ j, j < i + 1 → (fwdNext g co I1 i1 i s1).U (I1 + j) = s1.U (I1 + j) := by
      intro j hj; simp only [fwdNext]; rw [upd_other]; omega
    have oV : ∀ j, j < i + 1 → (fwdNext g co I1 i1 i s1).V (I1 + j) = s1.V (I1 + j) := by
      intro j hj; simp only [fwdNext]; rw [upd_other]; omega
    have oW : ∀ j, j < i + 1 → (fwdNext g co I1 i1 i s1).W (I1 + j) = s1.W (I1 + j) := by
      intro j hj; simp only [fwdNext]; rw [upd_other]; omega
    have nT : (fwdNext g co I1 i1 i s1).T (i1 + (i + 1)) = T_ik (co.a (i1 + (i+1)))
        (co.b (i1 + (i+1))) (co.c (i1 + (i+1))) (co.A (i1 + (i+1))) (co.E (I1 + (i+1)))
        (s1.U (I1 + i)) g := by
      simp only [fwdNext, e1, e2]; simp
    have nU : (fwdNext g co I1 i1 i s1).U (I1 + (i + 1)) = U_Ik (co.E (I1 + (i+2)))
        (co.c (i1 + (i+1))) (co.A (i1 + (i+1)))
        ((fwdNext g co I1 i1 i s1).T (i1 + (i + 1))) g := by
      simp only [fwdNext, e1, e2]; simp [add_assoc]
    have nV : (fwdNext g co I1 i1 i s1).V (I1 + (i + 1)) = V_Ik (co.P (i1 + (i+1)))
        (co.a (i1 + (i+1))) (co.D (I1 + (i+1))) (co.D (I1 + (i+2)))
        (co.c (i1 + (i+1))) (co.A (i1 + (i+1))) (co.E (I1 + (i+1))) (s1.V (I1 + i))
        (s1.U (I1 + i)) ((fwdNext g co I1 i1 i s1).T (i1 + (i + 1))) g := by
      simp only [fwdNext, e1, e2]
      rw [upd_same, upd_same, upd_other _ _ (by omega : I1 + i ≠ I1 + (i+1))]; simp [add_assoc]
    have nW : (fwdNext g co I1 i1 i s1).W (I1 + (i + 1)) = W_Ik (co.A (i1 + (i+1)))
        (co.E (I1 + (i+1))) (co.a (i1 + (i+1))) (s1.W (I1 + i))
        (s1.U (I1 + i)) ((fwdNext g co I1 i1 i s1).T (i1 + (i + 1))) g := by
      simp only [fwdNext, e1, e2]
      rw [upd_same, upd_same, upd_other _ _ (by omega : I1 + i ≠ I1 + (i+1))]
    refine ⟨⟨?_, ?_, ?_, ?_, ?_, ?_, ?_, ?_⟩, ?_, ?_⟩
    · simp only [oT 0 (by omega)]; exact hrel.T0
    · simp only [oT 0 (by omega), oU 0 (by omega)]; exact hrel.U0
    · simp only [oT 0 (by omega), oV 0 (by omega)]; exact hrel.V0
    · simp only [oT 0 (by omega), oW 0 (by omega)]; exact hrel.W0
    · intro j hj
      rcases Nat.lt_or_ge (j + 1) (i + 1) with h | h
      · simp only [oT _ h, oU j (by omega)]; exact hrel.Ts j h
      · obtain rfl : j = i := by omega
        simp only [nT, oU j (by omega)]; rfl
    · intro j hj
      rcases Nat.lt_or_ge (j + 1) (i + 1) with h | h
      · simp only [oT _ h, oU _ h]; exact hrel.Us j h
      · obtain rfl : j = i := by omega
        simp only [nU]; rfl
    · intro j hj
      rcases Nat.lt_or_ge (j + 1) (i + 1) with h | h
      · simp only [oT _ h, oU j (by omega), oV _ h, oV j (by omega)]; exact hrel.Vs j h
      · obtain rfl : j = i := by omega
        simp only [nV, oU j (by omega), oV j (by omega)]; rfl
    · intro j hj
      rcases Nat.lt_or_ge (j + 1) (i + 1) with h | h
      · simp only [oT _ h, oU j (by omega), oW _ h, oW j (by omega)]; exact hrel.Ws j h
      · obtain rfl : j = i := by omega
        simp only [nW, oU j (by omega), oW j (by omega)]; rfl
    · intro i' hi'
      have h1 := hi' (i + 1) (by omega)
      rw [← hT i' (fun j hj => hi' j (by omega))]
      simp only [fwdNext]; rw [upd_other]; omega
    · intro I' hI'
      have h1 := hI' (i + 1) (by omega)
      obtain ⟨hu, hv, hw⟩ := hU I' (fun j hj => hI' j (by omega))
      rw [← hu, ← hv, ← hw]
      simp only [fwdNext]; rw [upd_other, upd_other, upd_other] <;> first | omega | simp

/-- The backward state agrees with `s'` outside the superlink. -/
def BwdFrame (n I1 i1 : ℕ) (s s' : Bwd K) : Prop :=
  (∀ i, (∀ j, j < n → i ≠ i1 + j) → s'.O i = s.O i) ∧
  (∀ I, (∀ j, j < n → I ≠ I1 + j) → s'.X I = s.X I ∧ s'.Y I = s.Y I ∧ s'.Z I = s.Z I)

theorem bwdSuperlink_spec (g : K) (co : Coef K) (n I1 i1 : ℕ) (hn : 1 ≤ n) (s : Bwd K) :
    let s' := bwdSuperlink g co n (I1 + n - 1) (i1 + n - 1) s
    BwdRel g (co.slice i1 I1) n (fun j => s'.O (i1 + j)) (fun j => s'.X (I1 + j))
      (fun j => s'.Y (I1 + j)) (fun j => s'.Z (I1 + j)) ∧ BwdFrame n I1 i1 s s' := by
  obtain ⟨m, rfl⟩ : ∃ m, n = m + 1 := ⟨n - 1, by omega⟩
  have a1 : I1 + (m + 1) - 1 = I1 + m := by omega
  have a2 : i1 + (m + 1) - 1 = i1 + m := by omega
  rw [a1, a2]
  have key := forRange_inv
    (fun i s' => BwdRelFrom (m - i) g (co.slice i1 I1) (m + 1) (fun j => s'.O (i1 + j))
      (fun j => s'.X (I1 + j)) (fun j => s'.Y (I1 + j)) (fun j => s'.Z (I1 + j)) ∧
      BwdFrame (m + 1) I1 i1 s s')
    m (bwdNext g co (I1 + m) (i1 + m)) (bwdFirst g co (I1 + m) (i1 + m) s) ?_ ?_
  · simpa [bwdSuperlink] using key
  · refine ⟨⟨?_, ?_, ?_, ?_, ?_, ?_, ?_, ?_⟩, ?_, ?_⟩
    · simp [bwdFirst, Coef.slice]
    · simp [bwdFirst, Coef.slice]
    · simp [bwdFirst, Coef.slice, add_assoc]
    · simp [bwdFirst, Coef.slice, add_assoc]
    · intro j hl hj; omega
    · intro j hl hj; omega
    · intro j hl hj; omega
    · intro j hl hj; omega
    · intro i hi
      have := hi m (by omega)
      simp only [bwdFirst]
      rw [upd_other]; simpa using this
    · intro i hi
      have := hi m (by omega)
      simp only [bwdFirst]
      rw [upd_other, upd_other, upd_other] <;> simp_all
  · rintro i hi s1 ⟨hrel, hT, hU⟩
    -- the link written in this iteration has local number `r = m - 1 - i`
    obtain ⟨r, hr⟩ : ∃ r, m = r + 1 + i := ⟨m - 1 - i, by omega⟩
    have e1 : ∀ x : ℕ, x + m - 1 - i = x + r := by intro x; omega
    have e3 : m - i = r + 1 := by omega
    have e4 : m - (i + 1) = r := by omega
    rw [e3] at hrel
    rw [e4]
    have oO : ∀ j, j ≠ r → (bwdNext g co (I1 + m) (i1 + m) i s1).O (i1 + j) = s1.O (i1 + j) := by
      intro j hj; simp only [bwdNext, e1]; rw [upd_other]; omega
    have oX : ∀ j, j ≠ r → (bwdNext g co (I1 + m) (i1 + m) i s1).X (I1 + j) = s1.X (I1 + j) := by
      intro j hj; simp only [bwdNext, e1]; rw [upd_other]; omega
    have oY : ∀ j, j ≠ r → (bwdNext g co (I1 + m) (i1 + m) i s1).Y (I1 + j) = s1.Y (I1 + j) := by
      intro j hj; simp only [bwdNext, e1]; rw [upd_other]; omega
    have oZ : ∀ j, j ≠ r → (bwdNext g co (I1 + m) (i1 + m) i s1).Z (I1 + j) = s1.Z (I1 + j) := by
      intro j hj; simp only [bwdNext, e1]; rw [upd_other]; omega
    have nO : (bwdNext g co (I1 + m) (i1 + m) i s1).O (i1 + r) = O_ik (co.a (i1 + r))
        (co.b (i1 + r)) (co.c (i1 + r)) (co.A (i1 + r)) (co.E (I1 + (r+1)))
        (s1.X (I1 + (r+1))) g := by
      simp only [bwdNext, e1]; simp [add_assoc]
    have nX : (bwdNext g co (I1 + m) (i1 + m) i s1).X (I1 + r) = X_Ik (co.A (i1 + r))
        (co.E (I1 + r)) (co.a (i1 + r))
        ((bwdNext g co (I1 + m) (i1 + m) i s1).O (i1 + r)) g := by
      simp only [bwdNext, e1]; simp
    have nY : (bwdNext g co (I1 + m) (i1 + m) i s1).Y (I1 + r) = Y_Ik (co.P (i1 + r))
        (co.a (i1 + r)) (co.D (I1 + r)) (co.D (I1 + (r+1)))
        (co.c (i1 + r)) (co.A (i1 + r)) (co.E (I1 + (r+1))) (s1.Y (I1 + (r+1)))
        (s1.X (I1 + (r+1))) ((bwdNext g co (I1 + m) (i1 + m) i s1).O (i1 + r)) g := by
      simp only [bwdNext, e1]
      rw [upd_same, upd_same, upd_other _ _ (by omega : I1 + r + 1 ≠ I1 + r)]; simp [add_assoc]
    have nZ : (bwdNext g co (I1 + m) (i1 + m) i s1).Z (I1 + r) = Z_Ik (co.A (i1 + r))
        (co.E (I1 + (r+1))) (co.c (i1 + r)) (s1.Z (I1 + (r+1)))
        (s1.X (I1 + (r+1))) ((bwdNext g co (I1 + m) (i1 + m) i s1).O (i1 + r)) g := by
      simp only [bwdNext, e1]
      rw [upd_same, upd_same, upd_other _ _ (by omega : I1 + r + 1 ≠ I1 + r)]; simp [add_assoc]
    have hm : m ≠ r := by omega
    refine ⟨⟨?_, ?_, ?_, ?_, ?_, ?_, ?_, ?_⟩, ?_, ?_⟩
    · simp only [Nat.add_sub_cancel, oO m hm]; exact hrel.On
    · simp only [Nat.add_sub_cancel, oO m hm, oX m hm]; exact hrel.Xn
    · simp only [Nat.add_sub_cancel, oO m hm, oY m hm]; exact hrel.Yn
    · simp only [Nat.add_sub_cancel, oO m hm, oZ m hm]; exact hrel.Zn
    · intro j hl hj
      rcases Nat.eq_or_lt_of_le hl with h | h
      · subst h; simp only [nO, oX (r + 1) (by omega)]; rfl
      · simp only [oO j (by omega), oX (j+1) (by omega)]; exact hrel.Os j h hj
    · intro j hl hj
      rcases Nat.eq_or_lt_of_le hl with h | h
      · subst h; simp only [nX]; rfl
      · simp only [oO j (by omega), oX j (by omega)]; exact hrel.Xs j h hj
    · intro j hl hj
      rcases Nat.eq_or_lt_of_le hl with h | h
      · subst h; simp only [nY, oX (r + 1) (by omega), oY (r + 1) (by omega)]; rfl
      · simp only [oO j (by omega), oX (j+1) (by omega), oY j (by omega), oY (j+1) (by omega)]
        exact hrel.Ys j h hj
    · intro j hl hj
      rcases Nat.eq_or_lt_of_le hl with h | h
      · subst h; simp only [nZ, oX (r + 1) (by omega), oZ (r + 1) (by omega)]; rfl
      · simp only [oO j (by omega), oX (j+1) (by omega), oZ j (by omega), oZ (j+1) (by omega)]
        exact hrel.Zs j h hj
    · intro i' hi'
      have h1 := hi' r (by omega)
      rw [← hT i' hi']
      simp only [bwdNext, e1]; rw [upd_other]; omega
    · intro I' hI'
      have h1 := hI' r (by omega)
      obtain ⟨hu, hv, hw⟩ := hU I' hI'
      rw [← hu, ← hv, ← hw]
      simp only [bwdNext, e1]; rw [upd_other, upd_other, upd_other] <;> first | omega | simp

/-- The whole forward loop: every superlink's slice satisfies the recurrences of its own data. -/
theorem forwardRecurrence_spec (g : K) (co : Coef K) (NK : ℕ) (nk I_1k i_1k : ℕ → ℕ) (s : Fwd K)
    (L : Layout NK nk I_1k i_1k) :
    let s' := forwardRecurrence g co NK nk I_1k i_1k s
    ∀ k, k < NK → FwdRel g (co.slice (i_1k k) (I_1k k)) (nk k) (fun j => s'.T (i_1k k + j))
      (fun j => s'.U (I_1k k + j)) (fun j => s'.V (I_1k k + j)) (fun j => s'.W (I_1k k + j)) := by
  intro s' k hk
  have key := forRange_inv
    (fun m s' => m ≤ NK → ∀ k, k < m → FwdRel g (co.slice (i_1k k) (I_1k k)) (nk k)
      (fun j => s'.T (i_1k k + j)) (fun j => s'.U (I_1k k + j)) (fun j => s'.V (I_1k k + j))
      (fun j => s'.W (I_1k k + j)))
    NK (fun k s => fwdSuperlink g co (nk k) (I_1k k) (i_1k k) s) s
    (by intro _ k hk; omega) ?_
  · exact key le_rfl k hk
  · intro m hm s1 ih _ k hk
    obtain ⟨hrel, hfT, hfU⟩ := fwdSuperlink_spec g co (nk m) (I_1k m) (i_1k m) (L.pos m hm) s1
    rcases Nat.lt_succ_iff_lt_or_eq.mp hk with h | h
    · have hk' : k < NK := by omega
      have ih' := ih (by omega) k h
      have fT : ∀ j, j < nk k → (fwdSuperlink g co (nk m) (I_1k m) (i_1k m) s1).T (i_1k k + j)
          = s1.T (i_1k k + j) := fun j hj =>
        hfT _ (fun j' hj' => L.links_disjoint k m hk' hm (by omega) j j' hj hj')
      have fU := fun j (hj : j < nk k) => hfU (I_1k k + j)
        (fun j' hj' => L.junctions_disjoint k m hk' hm (by omega) j j' hj.le hj'.le)
      have p := L.pos k hk'
      constructor
      · simp only [fT 0 p]; exact ih'.T0
      · simp only [fT 0 p, (fU 0 p).1]; exact ih'.U0
      · simp only [fT 0 p, (fU 0 p).2.1]; exact ih'.V0
      · simp only [fT 0 p, (fU 0 p).2.2]; exact ih'.W0
      · intro j hj; simp only [fT _ hj, (fU j (by omega)).1]; exact ih'.Ts j hj
      · intro j hj; simp only [fT _ hj, (fU _ hj).1]; exact ih'.Us j hj
      · intro j hj
        simp only [fT _ hj, (fU j (by omega)).1, (fU j (by omega)).2.1, (fU _ hj).2.1]
        exact ih'.Vs j hj
      · intro j hj
        simp only [fT _ hj, (fU j (by omega)).1, (fU j (by omega)).2.2, (fU _ hj).2.2]
        exact ih'.Ws j hj
    · subst h; exact hrel

/-- The whole backward loop. The code passes `_I_Nk`, `_i_nk` (last interior junction / last link). -/
theorem backwardRecurrence_spec (g : K) (co : Coef K) (NK : ℕ) (nk I_1k i_1k I_Nk i_nk : ℕ → ℕ)
    (s : Bwd K) (L : Layout NK nk I_1k i_1k)
    (hI : ∀ k, k < NK → I_Nk k = I_1k k + nk k - 1) (hi : ∀ k, k < NK → i_nk k = i_1k k + nk k - 1) :
    let s' := backwardRecurrence g co NK nk I_Nk i_nk s
    ∀ k, k < NK → BwdRel g (co.slice (i_1k k) (I_1k k)) (nk k) (fun j => s'.O (i_1k k + j))
      (fun j => s'.X (I_1k k + j)) (fun j => s'.Y (I_1k k + j)) (fun j => s'.Z (I_1k k + j)) := by
  intro s' k hk
  have key := forRange_inv
    (fun m s' => m ≤ NK → ∀ k, k < m → BwdRel g (co.slice (i_1k k) (I_1k k)) (nk k)
      (fun j => s'.O (i_1k k + j)) (fun j => s'.X (I_1k k + j)) (fun j => s'.Y (I_1k k + j))
      (fun j => s'.Z (I_1k k + j)))
    NK (fun k s => bwdSuperlink g co (nk k) (I_Nk k) (i_nk k) s) s
    (by intro _ k hk; omega) ?_
  · exact key le_rfl k hk
  · intro m hm s1 ih _ k hk
    rw [hI m hm, hi m hm]
    obtain ⟨hrel, hfT, hfU⟩ := bwdSuperlink_spec g co (nk m) (I_1k m) (i_1k m) (L.pos m hm) s1
    rcases Nat.lt_succ_iff_lt_or_eq.mp hk with h | h
    · have hk' : k < NK := by omega
      have ih' := ih (by omega) k h
      have fT := fun j (hj : j < nk k) => hfT (i_1k k + j)
        (fun j' hj' => L.links_disjoint k m hk' hm (by omega) j j' hj hj')
      have fU := fun j (hj : j < nk k) => hfU (I_1k k + j)
        (fun j' hj' => L.junctions_disjoint k m hk' hm (by omega) j j' hj.le hj'.le)
      have p := L.pos k hk'
      have q : nk k - 1 < nk k := by omega
      constructor
      · simp only [fT _ q]; exact ih'.On
      · simp only [fT _ q, (fU _ q).1]; exact ih'.Xn
      · simp only [fT _ q, (fU _ q).2.1]; exact ih'.Yn
      · simp only [fT _ q, (fU _ q).2.2]; exact ih'.Zn
      · intro j hl hj; simp only [fT j (by omega), (fU _ hj).1]; exact ih'.Os j hl hj
      · intro j hl hj
        simp only [fT j (by omega), (fU j (by omega)).1]; exact ih'.Xs j hl hj
      · intro j hl hj
        simp only [fT j (by omega), (fU j (by omega)).2.1, (fU _ hj).1, (fU _ hj).2.1]
        exact ih'.Ys j hl hj
      · intro j hl hj
        simp only [fT j (by omega), (fU j (by omega)).2.2, (fU _ hj).1, (fU _ hj).2.2]
        exact ih'.Zs j hl hj
    · subst h; exact hrel

end Pipedream.Sweep
