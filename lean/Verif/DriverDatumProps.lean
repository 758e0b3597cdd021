import Verif.DriverProps

/-!
# C107: error control and the height datum

`_scaled_error` (simulation.py 322–332) divides the difference between the coarse and the fine heads by
`1e-6 + 1e-3 · max(H, H_prev)`, heads above datum. The step equations do not know the datum
(`C106`); the error estimate does.
-/

namespace Pipedream.Driver

variable {X W I : Type} {hy hy' : Hydraulics X W I}

/-- The same hydraulics described from a datum lower by `d`: heads are larger by `d` (specification). -/
structure Raised (d : ℝ) (hy hy' : Hydraulics X W I) : Prop where
  M : hy'.M = hy.M
  heads : ∀ x j, hy'.heads x j = (hy.heads x j).map (· + d)

/-- **C107 (when the scaled error is the same).** Only if there is nothing to scale or the datum is the
same. -/
theorem C107_scaled_iff {d : ℝ} (r : Raised d hy hy') {coarse fine prev : X} {j : ℕ} {a b p : ℝ}
    (ha : hy.heads coarse j = some a) (hb : hy.heads fine j = some b) (hp : hy.heads prev j = some p)
    (h0 : (1e-6 : ℝ) + max b p * 1e-3 ≠ 0) (h1 : (1e-6 : ℝ) + (max b p + d) * 1e-3 ≠ 0) :
    scaledErr hy' coarse fine prev j = scaledErr hy coarse fine prev j ↔ a = b ∨ d = 0 := by
  have e : max (b + d) (p + d) = max b p + d := max_add_add_right b p d
  simp only [scaledErr, r.heads, ha, hb, hp, Option.map_some, e, if_neg h0, if_neg h1,
    add_sub_add_right_eq_sub, Option.some.injEq]
  rw [div_eq_div_iff h1 h0]
  constructor
  · intro h
    have : (a - b) * (d * 1e-3) = 0 := by linear_combination -h
    rcases mul_eq_zero.mp this with h | h
    · left; linarith
    · right; rcases mul_eq_zero.mp h with h | h
      · exact h
      · norm_num at h
  · rintro (rfl | rfl)
    · simp
    · rw [add_zero]

/-- **C107 (violated: a high datum accepts everything).** Whatever the coarse and the fine solution are,
above a sufficiently low datum their difference passes any tolerance. -/
theorem C107_high_accepts {coarse fine prev : X} {a b p : ℕ → ℝ}
    (ha : ∀ j, j < hy.M → hy.heads coarse j = some (a j)) (hb : ∀ j, j < hy.M → hy.heads fine j = some (b j))
    (hp : ∀ j, j < hy.M → hy.heads prev j = some (p j)) (hM : 0 < hy.M) {tol : ℝ} (ht : eps ≤ tol) :
    ∃ D, ∀ d, D ≤ d → ∀ hy' : Hydraulics X W I, Raised d hy hy' →
      ∃ e, normedErr 2 hy'.M (scaledErr hy' coarse fine prev) = .ok e ∧ ¬ e.rejected tol := by
  have tp : 0 < tol := lt_of_lt_of_le eps_pos ht
  let f : ℕ → ℝ := fun j => |a j - b j| / tol * 1000 + |b j| + |p j|
  have fn : ∀ j, 0 ≤ f j := fun j => by positivity
  refine ⟨∑ j ∈ Finset.range hy.M, f j, fun d hd hy' r => ?_⟩
  have hf : ∀ j, j < hy.M → f j ≤ d := fun j hj =>
    (Finset.single_le_sum (fun i _ => fn i) (Finset.mem_range.mpr hj)).trans hd
  have den : ∀ j, j < hy.M → |a j - b j| ≤ tol * (1e-6 + (max (b j) (p j) + d) * 1e-3) ∧
      0 < (1e-6 : ℝ) + (max (b j) (p j) + d) * 1e-3 := by
    intro j hj
    have h := hf j hj
    simp only [f] at h
    have h1 : 0 ≤ max (b j) (p j) + |b j| := by
      have := le_max_left (b j) (p j); have := neg_abs_le (b j); linarith
    have h2 : |a j - b j| = |a j - b j| / tol * 1000 * 1e-3 * tol := by field_simp; norm_num; ring
    have h3 : 0 ≤ |a j - b j| / tol * 1000 := by positivity
    have h4 := abs_nonneg (p j)
    refine ⟨?_, by norm_num; nlinarith⟩
    rw [h2, mul_comm tol]
    refine mul_le_mul_of_nonneg_right ?_ tp.le
    norm_num; linarith
  let v : ℕ → ℝ := fun j => (a j - b j) / (1e-6 + (max (b j) (p j) + d) * 1e-3)
  have hv : ∀ j, j < hy.M → scaledErr hy' coarse fine prev j = some (v j) := by
    intro j hj
    have e : max (b j + d) (p j + d) = max (b j) (p j) + d := max_add_add_right _ _ d
    simp only [scaledErr, r.heads, ha j hj, hb j hj, hp j hj, Option.map_some, e, if_neg (den j hj).2.ne',
      add_sub_add_right_eq_sub, v]
  have hv2 : ∀ j, j < hy.M → v j ^ 2 ≤ tol ^ 2 := by
    intro j hj
    have := (den j hj).1
    have : |v j| ≤ tol := by
      simp only [v, abs_div, abs_of_pos (den j hj).2]
      rw [div_le_iff₀ (den j hj).2]; exact this
    exact sq_le_sq' (by have := neg_abs_le (v j); linarith) ((le_abs_self _).trans this)
  have all : ∀ j, j < hy.M → (scaledErr hy' coarse fine prev j).isSome := fun j hj => by rw [hv j hj]; rfl
  refine ⟨.val (max |Real.sqrt ((∑ j ∈ Finset.range hy.M, ((scaledErr hy' coarse fine prev j).getD 0) ^ 2) /
    hy.M)| eps), ?_, ?_⟩
  · simp only [normedErr, r.M, if_pos all]
    norm_num
  · simp only [Est.rejected, not_lt, gt_iff_lt]
    refine max_le ?_ ht
    rw [abs_of_nonneg (Real.sqrt_nonneg _)]
    have hn : (0 : ℝ) < hy.M := by exact_mod_cast hM
    refine Real.sqrt_le_iff.mpr ⟨tp.le, ?_⟩
    rw [div_le_iff₀ hn]
    calc ∑ j ∈ Finset.range hy.M, ((scaledErr hy' coarse fine prev j).getD 0) ^ 2
        ≤ ∑ j ∈ Finset.range hy.M, tol ^ 2 := Finset.sum_le_sum fun j hj => by
          rw [hv j (Finset.mem_range.mp hj)]; exact hv2 j (Finset.mem_range.mp hj)
      _ = tol ^ 2 * hy.M := by rw [Finset.sum_const, Finset.card_range, nsmul_eq_mul]; ring

/-- **C107 (violated: some datum rejects everything).** For any states there is a datum from which the step is
rejected at every tolerance, even when the coarse and the fine solution are equal: the denominator
vanishes. -/
theorem C107_some_datum_rejects {coarse fine prev : X} {a b p : ℝ} {j : ℕ} (hj : j < hy.M)
    (ha : hy.heads coarse j = some a) (hb : hy.heads fine j = some b) (hp : hy.heads prev j = some p) :
    ∃ d, ∀ hy' : Hydraulics X W I, Raised d hy hy' → ∀ tol,
      ∃ e, normedErr 2 hy'.M (scaledErr hy' coarse fine prev) = .ok e ∧ e.rejected tol := by
  refine ⟨-(max b p) - 1e-3, fun hy' r tol => ⟨.nan, ?_, trivial⟩⟩
  have e : max (b + (-(max b p) - 1e-3)) (p + (-(max b p) - 1e-3)) = -1e-3 := by
    rw [max_add_add_right]; ring
  have hn : scaledErr hy' coarse fine prev j = none := by
    simp only [scaledErr, r.heads, ha, hb, hp, Option.map_some, e]
    norm_num
  have : ¬ ∀ j, j < hy'.M → (scaledErr hy' coarse fine prev j).isSome := fun h => by
    have := h j (by rw [r.M]; exact hj)
    rw [hn] at this; exact absurd this (by simp)
  simp only [normedErr, if_neg this]
  norm_num

/-- **C107 (partial).** What does not depend on the datum: with equal coarse and fine heads and positive
denominators the error is at its floor. Missing: everything else, by the two theorems above. -/
theorem C107_equal_partial {d : ℝ} (r : Raised d hy hy') {coarse fine prev : X} {b p : ℕ → ℝ}
    (ha : ∀ j, j < hy.M → hy.heads coarse j = some (b j)) (hb : ∀ j, j < hy.M → hy.heads fine j = some (b j))
    (hp : ∀ j, j < hy.M → hy.heads prev j = some (p j))
    (hd : ∀ j, j < hy.M → (1e-6 : ℝ) + (max (b j) (p j) + d) * 1e-3 ≠ 0) :
    normedErr 2 hy'.M (scaledErr hy' coarse fine prev) = .ok (.val eps) := by
  have hv : ∀ j, j < hy.M → scaledErr hy' coarse fine prev j = some 0 := by
    intro j hj
    have e : max (b j + d) (p j + d) = max (b j) (p j) + d := max_add_add_right _ _ d
    simp only [scaledErr, r.heads, ha j hj, hb j hj, hp j hj, Option.map_some, e, if_neg (hd j hj), sub_self,
      zero_div]
  have all : ∀ j, j < hy.M → (scaledErr hy' coarse fine prev j).isSome := fun j hj => by rw [hv j hj]; rfl
  have s0 : ∑ j ∈ Finset.range hy.M, ((scaledErr hy' coarse fine prev j).getD 0) ^ 2 = 0 :=
    Finset.sum_eq_zero fun j hj => by rw [hv j (Finset.mem_range.mp hj)]; simp
  simp only [normedErr, r.M, if_pos all, s0]
  norm_num [eps_pos.le]

/-- A case: heads 5 and 4 in the coarse and the fine solution; the descriptions from two datums exist. -/
example : ∃ (hy hy' : Hydraulics ℝ Unit Unit), Raised 100 hy hy' ∧ 0 < hy.M ∧ hy.heads 5 0 = some 5 ∧
    hy.heads 4 0 = some 4 ∧ hy'.heads 4 0 = some 104 :=
  ⟨⟨1, fun x _ => some x, fun _ x w _ _ => .ok (x, w), fun _ w => w⟩,
    ⟨1, fun x _ => some (x + 100), fun _ x w _ _ => .ok (x, w), fun _ w => w⟩, ⟨rfl, fun _ _ => rfl⟩,
    by norm_num, rfl, rfl, by norm_num⟩

end Pipedream.Driver
