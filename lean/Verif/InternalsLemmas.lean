import Verif.SweepLemmas

/-! # Lemmas about `numba_solve_internals` -/

namespace Pipedream.Sweep

variable {K : Type*} [Field K] [LinearOrder K]

/-- Relations between the entries left by the internal solve of one superlink (local numbering). -/
structure IntRelFrom (lo : ℕ) (U V W X Y Z : ℕ → K) (mn mx hu hd : K) (n : ℕ) (h Q : ℕ → K) :
    Prop where
  h0 : h 0 = hu
  hn : h n = hd
  Qs : ∀ j, lo ≤ j → 1 ≤ j → j < n → Q j = Q_i_f (h (j + 1)) hu (U j) (V j) (W j)
  hs : ∀ j, lo ≤ j → 1 ≤ j → j < n → h j = clipDepth mn mx (h_i_b (Q j) hd (X j) (Y j) (Z j))

/-- The complete set of relations, including the first link. -/
structure IntRel (U V W X Y Z : ℕ → K) (mn mx hu hd : K) (n : ℕ) (back : Bool) (h Q : ℕ → K) :
    Prop extends IntRelFrom 1 U V W X Y Z mn mx hu hd n h Q where
  Q0 : Q 0 = if back then Q_i_b hu hd (X 0) (Y 0) (Z 0) else Q_i_f (h 1) hu (U 0) (V 0) (W 0)

/-- Nothing outside the superlink is written. -/
def HQFrame (n I1 i1 : ℕ) (s s' : HQ K) : Prop :=
  (∀ i, (∀ j, j < n → i ≠ i1 + j) → s'.Q i = s.Q i) ∧
  (∀ I, (∀ j, j ≤ n → I ≠ I1 + j) → s'.h I = s.h I)

theorem internalsSuperlink_spec (f : Fwd K) (bw : Bwd K) (mn mx hu hd : K) (n I1 i1 : ℕ)
    (back : Bool) (s : HQ K) (hn : 1 ≤ n) :
    let s' := internalsSuperlink f bw mn mx hu hd n I1 i1 back s
    IntRel (fun j => f.U (I1 + j)) (fun j => f.V (I1 + j)) (fun j => f.W (I1 + j))
      (fun j => bw.X (I1 + j)) (fun j => bw.Y (I1 + j)) (fun j => bw.Z (I1 + j)) mn mx hu hd n back
      (fun j => s'.h (I1 + j)) (fun j => s'.Q (i1 + j)) ∧ HQFrame n I1 i1 s s' := by
  obtain ⟨m, rfl⟩ : ∃ m, n = m + 1 := ⟨n - 1, by omega⟩
  have a1 : I1 + (m + 1) - 1 = I1 + m := by omega
  have a2 : i1 + (m + 1) - 1 = i1 + m := by omega
  have key := forRange_inv
    (fun i s' => IntRelFrom (m + 1 - i) (fun j => f.U (I1 + j)) (fun j => f.V (I1 + j))
      (fun j => f.W (I1 + j))
      (fun j => bw.X (I1 + j)) (fun j => bw.Y (I1 + j)) (fun j => bw.Z (I1 + j)) mn mx hu hd (m + 1)
      (fun j => s'.h (I1 + j)) (fun j => s'.Q (i1 + j)) ∧ HQFrame (m + 1) I1 i1 s s')
    m (internalsNext f bw mn mx hu hd (I1 + m) (i1 + m))
    { s with h := upd (upd s.h I1 hu) (I1 + (m + 1)) hd } ?_ ?_
  · obtain ⟨hr, hQ, hh⟩ := key
    have e : m + 1 - m = 1 := by omega
    rw [e] at hr
    simp only [internalsSuperlink, a1, a2, Nat.add_sub_cancel]
    cases back
    · refine ⟨⟨⟨hr.h0, hr.hn, ?_, ?_⟩, ?_⟩, ?_, ?_⟩
      · intro j h1 h2 h3
        have := hr.Qs j h1 h2 h3
        simp only [Bool.false_eq_true, if_false]
        rw [upd_other _ _ (by omega)]; exact this
      · intro j h1 h2 h3
        have := hr.hs j h1 h2 h3
        simp only [Bool.false_eq_true, if_false]
        rw [upd_other _ _ (by omega)]; exact this
      · simp
      · intro i hi
        have := hi 0 (by omega)
        simp only [Bool.false_eq_true, if_false]
        rw [upd_other _ _ (by simpa using this)]; exact hQ i hi
      · exact hh
    · refine ⟨⟨⟨hr.h0, hr.hn, ?_, ?_⟩, ?_⟩, ?_, ?_⟩
      · intro j h1 h2 h3
        have := hr.Qs j h1 h2 h3
        simp only [] at this ⊢
        simp only [if_true]
        rw [upd_other _ _ (by omega)]; exact this
      · intro j h1 h2 h3
        have := hr.hs j h1 h2 h3
        simp only [] at this ⊢
        simp only [if_true]
        rw [upd_other _ _ (by omega)]; exact this
      · have := hr.h0
        simp only [add_zero] at this
        simp [this]
      · intro i hi
        have := hi 0 (by omega)
        simp only [if_true]
        rw [upd_other _ _ (by simpa using this)]; exact hQ i hi
      · exact hh
  · refine ⟨⟨?_, ?_, ?_, ?_⟩, ?_, ?_⟩
    · simp only [add_zero]; rw [upd_other _ _ (by omega)]; simp
    · simp
    · intro j h1 h2 h3; omega
    · intro j h1 h2 h3; omega
    · intro i hi; rfl
    · intro I hI
      have h1 := hI 0 (by omega)
      have h2 := hI (m + 1) (by omega)
      simp only
      rw [upd_other _ _ h2, upd_other _ _ (by simpa using h1)]
  · rintro i hi s1 ⟨hrel, hQ, hh⟩
    obtain ⟨r, hr⟩ : ∃ r, m = r + i := ⟨m - i, by omega⟩
    have e1 : ∀ x : ℕ, x + m - i = x + r := by intro x; omega
    have e3 : m + 1 - i = r + 1 := by omega
    have e4 : m + 1 - (i + 1) = r := by omega
    rw [e3] at hrel
    rw [e4]
    have oQ : ∀ j, j ≠ r → (internalsNext f bw mn mx hu hd (I1 + m) (i1 + m) i s1).Q (i1 + j)
        = s1.Q (i1 + j) := by
      intro j hj; simp only [internalsNext, e1]; rw [upd_other]; omega
    have oh : ∀ j, j ≠ r → (internalsNext f bw mn mx hu hd (I1 + m) (i1 + m) i s1).h (I1 + j)
        = s1.h (I1 + j) := by
      intro j hj; simp only [internalsNext, e1]; rw [upd_other]; omega
    have nQ : (internalsNext f bw mn mx hu hd (I1 + m) (i1 + m) i s1).Q (i1 + r)
        = Q_i_f (s1.h (I1 + (r + 1))) hu (f.U (I1 + r)) (f.V (I1 + r)) (f.W (I1 + r)) := by
      simp only [internalsNext, e1]; simp [add_assoc]
    have nh : (internalsNext f bw mn mx hu hd (I1 + m) (i1 + m) i s1).h (I1 + r)
        = clipDepth mn mx (h_i_b ((internalsNext f bw mn mx hu hd (I1 + m) (i1 + m) i s1).Q (i1 + r))
            hd (bw.X (I1 + r)) (bw.Y (I1 + r)) (bw.Z (I1 + r))) := by
      simp only [internalsNext, e1]; simp
    refine ⟨⟨?_, ?_, ?_, ?_⟩, ?_, ?_⟩
    · rw [oh 0 (by omega)]; exact hrel.h0
    · rw [oh (m + 1) (by omega)]; exact hrel.hn
    · intro j h1 h2 h3
      rcases Nat.eq_or_lt_of_le h1 with h | h
      · subst h; rw [nQ, oh (r + 1) (by omega)]
      · rw [oQ j (by omega), oh (j + 1) (by omega)]; exact hrel.Qs j h h2 h3
    · intro j h1 h2 h3
      rcases Nat.eq_or_lt_of_le h1 with h | h
      · subst h; rw [nh]
      · rw [oQ j (by omega), oh j (by omega)]; exact hrel.hs j h h2 h3
    · intro i' hi'
      have h1 := hi' r (by omega)
      rw [← hQ i' hi']
      simp only [internalsNext, e1]; rw [upd_other]; omega
    · intro I' hI'
      have h1 := hI' r (by omega)
      rw [← hh I' hI']
      simp only [internalsNext, e1]; rw [upd_other]; omega

theorem numbaSolveInternals_spec (f : Fwd K) (bw : Bwd K) (mn : K) (mx hu hd : ℕ → K)
    (i_1k I_1k nk : ℕ → ℕ) (NK : ℕ) (back : Bool) (s : HQ K) (L : Layout NK nk I_1k i_1k) :
    let s' := numbaSolveInternals f bw mn mx hu hd i_1k I_1k nk NK back s
    ∀ k, k < NK → IntRel (fun j => f.U (I_1k k + j)) (fun j => f.V (I_1k k + j))
      (fun j => f.W (I_1k k + j)) (fun j => bw.X (I_1k k + j)) (fun j => bw.Y (I_1k k + j))
      (fun j => bw.Z (I_1k k + j)) mn (mx k) (hu k) (hd k) (nk k) back
      (fun j => s'.h (I_1k k + j)) (fun j => s'.Q (i_1k k + j)) := by
  intro s' k hk
  have key := forRange_inv
    (fun m s' => m ≤ NK → ∀ k, k < m → IntRel (fun j => f.U (I_1k k + j)) (fun j => f.V (I_1k k + j))
      (fun j => f.W (I_1k k + j)) (fun j => bw.X (I_1k k + j)) (fun j => bw.Y (I_1k k + j))
      (fun j => bw.Z (I_1k k + j)) mn (mx k) (hu k) (hd k) (nk k) back
      (fun j => s'.h (I_1k k + j)) (fun j => s'.Q (i_1k k + j)))
    NK (fun k s => internalsSuperlink f bw mn (mx k) (hu k) (hd k) (nk k) (I_1k k) (i_1k k) back s) s
    (by intro _ k hk; omega) ?_
  · exact key le_rfl k hk
  · intro m hm s1 ih _ k hk
    obtain ⟨hrel, hfQ, hfh⟩ := internalsSuperlink_spec f bw mn (mx m) (hu m) (hd m) (nk m) (I_1k m)
      (i_1k m) back s1 (L.pos m hm)
    rcases Nat.lt_succ_iff_lt_or_eq.mp hk with h | h
    · have hk' : k < NK := by omega
      have ih' := ih (by omega) k h
      have fQ := fun j (hj : j < nk k) => hfQ (i_1k k + j)
        (fun j' hj' => L.links_disjoint k m hk' hm (by omega) j j' hj hj')
      have fh := fun j (hj : j ≤ nk k) => hfh (I_1k k + j)
        (fun j' hj' => L.junctions_disjoint k m hk' hm (by omega) j j' hj hj')
      have p := L.pos k hk'
      refine ⟨⟨?_, ?_, ?_, ?_⟩, ?_⟩
      · rw [fh 0 (by omega)]; exact ih'.h0
      · rw [fh _ le_rfl]; exact ih'.hn
      · intro j h1 h2 h3; rw [fQ j h3, fh (j+1) (by omega)]; exact ih'.Qs j h1 h2 h3
      · intro j h1 h2 h3; rw [fQ j h3, fh j (by omega)]; exact ih'.hs j h1 h2 h3
      · rw [fQ 0 p, fh 1 p]; exact ih'.Q0
    · subst h; exact hrel

end Pipedream.Sweep
