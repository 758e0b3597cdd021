import Verif.NetworkModel

/-!
# The assembly loops in closed form
-/

namespace Pipedream.Network

variable {K : Type*} [Field K] [LinearOrder K]

/-- `(r, c)` is one of the off-diagonal positions of the element pattern. -/
def Pattern (Ju Jd : ℕ → ℕ) (n : ℕ) (r c : ℕ) : Prop :=
  ∃ k, k < n ∧ ((Ju k = r ∧ Jd k = c) ∨ (Jd k = r ∧ Ju k = c))

omit [LinearOrder K] in
theorem clear_succ (bc : ℕ → Bool) (Ju Jd : ℕ → ℕ) (n : ℕ) (A : ℕ → ℕ → K) (r c : ℕ) :
    clearOffDiagonals bc Ju Jd (n+1) A r c =
      if bc r = false ∧ ((Ju n = r ∧ Jd n = c) ∨ (Jd n = r ∧ Ju n = c)) then 0
      else clearOffDiagonals bc Ju Jd n A r c := by
  unfold clearOffDiagonals
  rw [forRange_succ]
  simp only [ite_apply, upd2_apply]
  by_cases h1 : r = Ju n ∧ c = Jd n
  · obtain ⟨rfl, rfl⟩ := h1
    by_cases b1 : bc (Ju n) = true <;> by_cases b2 : bc (Jd n) = true <;> simp [b1, b2]
    intro e _; rw [e] at b1; exact absurd b1 b2
  · have h1' : ¬ (Ju n = r ∧ Jd n = c) := fun h => h1 ⟨h.1.symm, h.2.symm⟩
    by_cases h2 : r = Jd n ∧ c = Ju n
    · obtain ⟨rfl, rfl⟩ := h2
      by_cases b1 : bc (Ju n) = true <;> by_cases b2 : bc (Jd n) = true <;> simp [b1, b2, h1]
    · have h2' : ¬ (Jd n = r ∧ Ju n = c) := fun h => h2 ⟨h.1.symm, h.2.symm⟩
      simp [h1, h2, h1', h2']

omit [LinearOrder K] in
theorem clear_keep (bc : ℕ → Bool) (Ju Jd : ℕ → ℕ) (n : ℕ) (A : ℕ → ℕ → K) (r c : ℕ)
    (h : bc r = true ∨ ¬ Pattern Ju Jd n r c) : clearOffDiagonals bc Ju Jd n A r c = A r c := by
  induction n with
  | zero => rfl
  | succ n ih =>
    rw [clear_succ, if_neg, ih]
    · exact h.imp_right fun hp hq => hp (by
        obtain ⟨k, hk, h⟩ := hq; exact ⟨k, by omega, h⟩)
    · rintro ⟨hb, hq⟩
      rcases h with h | h
      · simp [h] at hb
      · exact h ⟨n, by omega, hq⟩

omit [LinearOrder K] in
theorem clear_zero (bc : ℕ → Bool) (Ju Jd : ℕ → ℕ) (n : ℕ) (A : ℕ → ℕ → K) (r c : ℕ)
    (hb : bc r = false) (h : Pattern Ju Jd n r c) : clearOffDiagonals bc Ju Jd n A r c = 0 := by
  induction n with
  | zero => obtain ⟨k, hk, -⟩ := h; omega
  | succ n ih =>
    rw [clear_succ]
    split_ifs with hn
    · rfl
    · apply ih
      obtain ⟨k, hk, h⟩ := h
      rcases Nat.lt_succ_iff_lt_or_eq.mp hk with hk' | rfl
      · exact ⟨k, hk', h⟩
      · exact absurd ⟨hb, h⟩ hn

omit [LinearOrder K] in
theorem setDiag_apply (bc : ℕ → Bool) (d0 : K) (F : ℕ → K) (M : ℕ) (A : ℕ → ℕ → K) (r c : ℕ) :
    setDiag bc d0 F M A r c = if r = c ∧ r < M then (if bc r then d0 else F r) else A r c := by
  induction M with
  | zero => simp [setDiag]
  | succ M ih =>
    unfold setDiag at ih ⊢
    rw [forRange_succ]
    simp only [upd2, ih]
    by_cases h : r = M
    · subst h
      by_cases hc : c = r
      · subst hc; simp
      · have : ¬ r = c := fun h => hc h.symm
        simp [hc, this]
    · have : r < M + 1 ↔ r < M := by omega
      simp [h, this]

omit [LinearOrder K] in
theorem addOffDiag_apply (bc : ℕ → Bool) (Ju Jd : ℕ → ℕ) (bu ad : ℕ → K) (n : ℕ) (A : ℕ → ℕ → K)
    (r c : ℕ) : addOffDiag bc Ju Jd bu ad n A r c = if bc r then A r c else
      A r c + ∑ k ∈ Finset.range n, (if Ju k = r ∧ Jd k = c then bu k else 0)
        - ∑ k ∈ Finset.range n, (if Jd k = r ∧ Ju k = c then ad k else 0) := by
  induction n with
  | zero => simp [addOffDiag]
  | succ n ih =>
    unfold addOffDiag at ih ⊢
    rw [forRange_succ, Finset.sum_range_succ, Finset.sum_range_succ]
    set B := forRange n _ A with hB
    simp only [ite_apply, upd2_apply]
    by_cases hb : bc r = true
    · simp only [hb, if_true] at ih ⊢
      rw [ih.symm]
      by_cases b1 : bc (Ju n) = true <;> by_cases b2 : bc (Jd n) = true <;> simp only [b1, b2, if_true, if_false, Bool.false_eq_true]
      · have h2 : ¬ (r = Jd n ∧ c = Ju n) := fun h => b2 (h.1 ▸ hb)
        simp [h2]
      · have h1 : ¬ (r = Ju n ∧ c = Jd n) := fun h => b1 (h.1 ▸ hb)
        simp [h1]
      · have h1 : ¬ (r = Ju n ∧ c = Jd n) := fun h => b1 (h.1 ▸ hb)
        have h2 : ¬ (r = Jd n ∧ c = Ju n) := fun h => b2 (h.1 ▸ hb)
        simp [h1, h2]
    · simp only [hb, Bool.false_eq_true, if_false] at ih ⊢
      have e1 : ∀ r c, (if bc (Ju n) = true then B r c
          else if r = Ju n ∧ c = Jd n then B (Ju n) (Jd n) + bu n else B r c)
          = B r c + (if bc (Ju n) = true then 0 else if Ju n = r ∧ Jd n = c then bu n else 0) := by
        intro r c
        by_cases h : r = Ju n ∧ c = Jd n
        · obtain ⟨rfl, rfl⟩ := h; by_cases b : bc (Ju n) = true <;> simp [b]
        · have h' : ¬ (Ju n = r ∧ Jd n = c) := fun q => h ⟨q.1.symm, q.2.symm⟩
          simp [h, h']
      simp only [e1]
      have f1 : (if bc (Ju n) = true then (0:K) else if Ju n = r ∧ Jd n = c then bu n else 0)
          = if Ju n = r ∧ Jd n = c then bu n else 0 := by
        by_cases h : Ju n = r ∧ Jd n = c
        · have : ¬ bc (Ju n) = true := h.1 ▸ hb
          simp [this]
        · simp [h]
      have f2 : (if bc (Jd n) = true then B r c + (if bc (Ju n) = true then (0:K) else if Ju n = r ∧ Jd n = c then bu n else 0)
          else if r = Jd n ∧ c = Ju n then
            B (Jd n) (Ju n) + (if bc (Ju n) = true then 0 else if Ju n = Jd n ∧ Jd n = Ju n then bu n else 0) - ad n
          else B r c + (if bc (Ju n) = true then 0 else if Ju n = r ∧ Jd n = c then bu n else 0))
          = B r c + (if Ju n = r ∧ Jd n = c then bu n else 0) - (if Jd n = r ∧ Ju n = c then ad n else 0) := by
        rw [f1]
        by_cases h : r = Jd n ∧ c = Ju n
        · obtain ⟨rfl, rfl⟩ := h
          rw [if_neg hb, f1]; simp
        · have h' : ¬ (Jd n = r ∧ Ju n = c) := fun q => h ⟨q.1.symm, q.2.symm⟩
          simp [h, h']
      rw [f2, ih]; ring

end Pipedream.Network
