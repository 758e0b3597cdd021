import Verif.NetworkModel
import Mathlib.LinearAlgebra.FiniteDimensional.Basic
import Mathlib.LinearAlgebra.Matrix.ToLin

/-!
# Matrices with dominant free columns

Pure linear algebra used for C06 and C15: a matrix whose fixed rows are unit rows, whose free rows have
non-positive off-diagonal entries and whose free columns have a positive sum over the free rows is
inverse-positive.
-/

namespace Pipedream.Network

variable {K : Type*} [Field K] [LinearOrder K] [IsStrictOrderedRing K]

structure ColDom (M : ℕ) (bc : ℕ → Bool) (l : ℕ → ℕ → K) : Prop where
  bc_row : ∀ i, i < M → bc i = true → ∀ j, j < M → l i j = if i = j then 1 else 0
  off : ∀ i, i < M → ∀ j, j < M → bc i = false → i ≠ j → l i j ≤ 0
  col : ∀ j, j < M → bc j = false → 0 < ∑ i ∈ (Finset.range M).filter (fun i => bc i = false), l i j

/-- Comparison principle. -/
theorem ColDom.nonneg {M : ℕ} {bc : ℕ → Bool} {l : ℕ → ℕ → K} (h : ColDom M bc l) {x : ℕ → K}
    (hx : ∀ i, i < M → 0 ≤ ∑ j ∈ Finset.range M, l i j * x j) : ∀ i, i < M → 0 ≤ x i := by
  by_contra hcon
  push Not at hcon
  obtain ⟨i0, hi0, hneg⟩ := hcon
  -- the set of negative entries contains only free rows
  let N := (Finset.range M).filter (fun i => x i < 0)
  have hN : ∀ i, i ∈ N ↔ i < M ∧ x i < 0 := by intro i; simp [N]
  have hfree : ∀ i ∈ N, bc i = false := by
    intro i hi
    obtain ⟨him, hxi⟩ := (hN i).mp hi
    by_contra hb
    have hb' : bc i = true := by simpa using hb
    have := hx i him
    rw [Finset.sum_congr rfl (fun j hj => by
      rw [h.bc_row i him hb' j (Finset.mem_range.mp hj)])] at this
    simp only [ite_mul, one_mul, zero_mul, Finset.sum_ite_eq, Finset.mem_range, him, if_true] at this
    linarith
  have hsum : 0 ≤ ∑ i ∈ N, ∑ j ∈ Finset.range M, l i j * x j :=
    Finset.sum_nonneg fun i hi => hx i ((hN i).mp hi).1
  rw [Finset.sum_comm] at hsum
  have hterm : ∀ j ∈ Finset.range M, ∑ i ∈ N, l i j * x j ≤ 0 ∧ (j ∈ N → ∑ i ∈ N, l i j * x j < 0) := by
    intro j hj
    have hjM := Finset.mem_range.mp hj
    rw [← Finset.sum_mul]
    by_cases hjN : j ∈ N
    · have hxj := ((hN j).mp hjN).2
      have hpos : 0 < ∑ i ∈ N, l i j := by
        have hsub : N ⊆ (Finset.range M).filter (fun i => bc i = false) := by
          intro i hi
          simp only [Finset.mem_filter, Finset.mem_range]
          exact ⟨((hN i).mp hi).1, hfree i hi⟩
        have hc := h.col j hjM (hfree j hjN)
        rw [← Finset.sum_sdiff hsub] at hc
        have : ∑ i ∈ (Finset.range M).filter (fun i => bc i = false) \ N, l i j ≤ 0 := by
          apply Finset.sum_nonpos
          intro i hi
          simp only [Finset.mem_sdiff, Finset.mem_filter, Finset.mem_range] at hi
          exact h.off i hi.1.1 j hjM hi.1.2 (fun e => hi.2 (e ▸ hjN))
        linarith
      have := mul_neg_of_pos_of_neg hpos hxj
      exact ⟨this.le, fun _ => this⟩
    · have hxj : 0 ≤ x j := by
        by_contra hc
        exact hjN ((hN j).mpr ⟨hjM, not_le.mp hc⟩)
      have hle : ∑ i ∈ N, l i j ≤ 0 := by
        apply Finset.sum_nonpos
        intro i hi
        exact h.off i ((hN i).mp hi).1 j hjM (hfree i hi) (fun e => hjN (e ▸ hi))
      exact ⟨mul_nonpos_of_nonpos_of_nonneg hle hxj, fun q => absurd q hjN⟩
  have : ∑ j ∈ Finset.range M, ∑ i ∈ N, l i j * x j < 0 := by
    apply Finset.sum_neg' (fun j hj => (hterm j hj).1)
    exact ⟨i0, Finset.mem_range.mpr hi0, (hterm i0 (Finset.mem_range.mpr hi0)).2 ((hN i0).mpr ⟨hi0, hneg⟩)⟩
  linarith

/-- Monotonicity of the solution in the right-hand side. -/
theorem ColDom.mono {M : ℕ} {bc : ℕ → Bool} {l : ℕ → ℕ → K} (h : ColDom M bc l) {r r' x x' : ℕ → K}
    (hs : Solves M l r x) (hs' : Solves M l r' x') (hr : ∀ i, i < M → r i ≤ r' i) :
    ∀ i, i < M → x i ≤ x' i := by
  intro i hi
  have := h.nonneg (x := fun j => x' j - x j) (fun i hi => by
    have e : ∑ j ∈ Finset.range M, l i j * (x' j - x j) = r' i - r i := by
      rw [← hs i hi, ← hs' i hi, ← Finset.sum_sub_distrib]
      exact Finset.sum_congr rfl (fun j _ => by ring)
    rw [e]; exact sub_nonneg.mpr (hr i hi)) i hi
  exact sub_nonneg.mp this

theorem ColDom.unique {M : ℕ} {bc : ℕ → Bool} {l : ℕ → ℕ → K} (h : ColDom M bc l) {r x x' : ℕ → K}
    (hs : Solves M l r x) (hs' : Solves M l r x') : ∀ i, i < M → x i = x' i := fun i hi =>
  le_antisymm (h.mono hs hs' (fun _ _ => le_rfl) i hi) (h.mono hs' hs (fun _ _ => le_rfl) i hi)

theorem ColDom.exists {M : ℕ} {bc : ℕ → Bool} {l : ℕ → ℕ → K} (h : ColDom M bc l) (r : ℕ → K) :
    ∃ x, Solves M l r x := by
  let m : Matrix (Fin M) (Fin M) K := fun i j => l i j
  let ext : (Fin M → K) → ℕ → K := fun v j => if hj : j < M then v ⟨j, hj⟩ else 0
  have key : ∀ v (i : Fin M), (m.mulVecLin v) i = ∑ j ∈ Finset.range M, l i j * ext v j := by
    intro v i
    rw [Finset.sum_range, Matrix.mulVecLin_apply, Matrix.mulVec, dotProduct]
    exact Finset.sum_congr rfl (fun j _ => by simp [m, ext])
  have inj : Function.Injective m.mulVecLin := by
    rw [injective_iff_map_eq_zero]
    intro v hv
    funext i
    have s0 : Solves M l (fun _ => 0) (ext v) := by
      intro i hi
      rw [← key v ⟨i, hi⟩, hv]; rfl
    have s1 : Solves M l (fun _ => 0) (fun _ => 0) := by intro i hi; simp
    have := h.unique s0 s1 i i.2
    simpa [ext] using this
  obtain ⟨v, hv⟩ := (LinearMap.injective_iff_surjective.mp inj) (fun i => r i)
  refine ⟨ext v, fun i hi => ?_⟩
  rw [← key v ⟨i, hi⟩, hv]

end Pipedream.Network
