import Verif.RegimeModel
import Verif.BaseInternalsProps
import Verif.DiagnosticsProps

/-!
# C214: the flow regime of a superlink

Each superlink is classified once, by the plain mean of the Froude numbers of its links, and all its junctions carry the
same flag, so the two one-sided solves of the base class share the superlinks out between them.
-/

namespace Pipedream.Base

open Pipedream.Sweep Pipedream.Topology Pipedream.Diag

variable {t : Tables} {n J L : ℕ → ℕ}

/-- Scatter-adding over the links of a table sums the links of the superlink. -/
theorem addAt_links (B : Blocks t n J L) (v : ℕ → ℝ) {k : ℕ} (hk : k < t.NK) :
    addAt (fun _ => (0 : ℝ)) t.ki v t.NL k = ∑ j ∈ Finset.range (n k), v (L k + j) := by
  rw [addAt_apply, zero_add, ← Finset.sum_filter]
  symm
  refine Finset.sum_bij (fun j _ => L k + j) (fun j hj => ?_) (fun a _ b _ e => by omega) (fun i hi => ?_) (fun _ _ => rfl)
  · have hj := Finset.mem_range.mp hj
    exact Finset.mem_filter.2 ⟨Finset.mem_range.2 (B.link_lt k hk j hj), B.ki k hk j hj⟩
  · obtain ⟨h1, h2⟩ := Finset.mem_filter.mp hi
    obtain ⟨k', hk', j, hj, rfl⟩ := B.links i (Finset.mem_range.mp h1)
    rw [B.ki k' hk' j hj] at h2
    subst h2
    exact ⟨j, Finset.mem_range.2 hj, rfl⟩

/-- **C214 (mean).** The Froude number of a superlink is the plain mean over its links, whatever their lengths. -/
theorem C214_mean (B : Blocks t n J L) (Fr : ℕ → ℝ) {k : ℕ} (hk : k < t.NK) :
    superFroude t Fr k * n k = ∑ j ∈ Finset.range (n k), Fr (L k + j) := by
  have h0 : (n k : ℝ) ≠ 0 := by have := B.pos k hk; positivity
  rw [superFroude, addAt_links B _ hk, B.nk hk, div_mul_cancel₀ _ h0]

/-- **C214 (one flag per superlink).** All junctions of a superlink carry the same flag: whether the sum of the Froude
numbers of its links reaches their number. -/
theorem C214_flag (B : Blocks t n J L) (Fr : ℕ → ℝ) {k j : ℕ} (hk : k < t.NK) (hj : j ≤ n k) :
    supercritical t Fr (J k + j) = true ↔ (n k : ℝ) ≤ ∑ i ∈ Finset.range (n k), Fr (L k + i) := by
  have h0 : (0 : ℝ) < n k := by have := B.pos k hk; positivity
  rw [supercritical, B.kI k hk j hj, decide_eq_true_iff, ← C214_mean B Fr hk]
  constructor <;> intro h <;> nlinarith

theorem flag_const (B : Blocks t n J L) (Fr : ℕ → ℝ) {k j : ℕ} (hk : k < t.NK) (hj : j ≤ n k) :
    supercritical t Fr (J k + j) = supercritical t Fr (J k) := by
  have := B.kI k hk 0 (Nat.zero_le _)
  rw [Nat.add_zero] at this
  rw [supercritical, supercritical, B.kI k hk j hj, this]

/-- **C214 (bounds).** A superlink all of whose links flow at least as fast as waves is flagged, and one all of whose
links are slower is not. -/
theorem C214_unanimous (B : Blocks t n J L) {g : ℝ} (hg : 0 < g) {Q A W : ℕ → ℝ} {k j : ℕ} (hk : k < t.NK) (hj : j ≤ n k)
    (hA : ∀ i, i < n k → 0 < A (L k + i)) (hW : ∀ i, i < n k → 0 < W (L k + i)) :
    ((∀ i, i < n k → Real.sqrt (g * A (L k + i) / W (L k + i)) ≤ |Q (L k + i)| / A (L k + i)) →
      supercritical t (linkFroude g Q A W) (J k + j) = true) ∧
    ((∀ i, i < n k → |Q (L k + i)| / A (L k + i) < Real.sqrt (g * A (L k + i) / W (L k + i))) →
      supercritical t (linkFroude g Q A W) (J k + j) = false) := by
  have e : ∀ i, i < n k → linkFroude g Q A W (L k + i)
      = |Q (L k + i)| / A (L k + i) / Real.sqrt (g * A (L k + i) / W (L k + i)) := fun i hi => by
    rw [linkFroude, C98_froude hg (hA i hi) (hW i hi), safeDivide_of_ne _ (hA i hi).ne', abs_div, abs_of_pos (hA i hi)]
  have pos : ∀ i, i < n k → 0 < Real.sqrt (g * A (L k + i) / W (L k + i)) := fun i hi =>
    Real.sqrt_pos.2 (div_pos (mul_pos hg (hA i hi)) (hW i hi))
  have one : (n k : ℝ) = ∑ i ∈ Finset.range (n k), (1 : ℝ) := by simp
  constructor
  · intro h
    rw [C214_flag B _ hk hj, one]
    refine Finset.sum_le_sum fun i hi => ?_
    have hi := Finset.mem_range.mp hi
    rw [e i hi, le_div_iff₀ (pos i hi), one_mul]
    exact h i hi
  · intro h
    rw [← Bool.not_eq_true, C214_flag B _ hk hj, one, not_le]
    refine Finset.sum_lt_sum_of_nonempty ⟨0, Finset.mem_range.2 (B.pos k hk)⟩ fun i hi => ?_
    have hi := Finset.mem_range.mp hi
    rw [e i hi, div_lt_one (pos i hi)]
    exact h i hi

/-- **C214 (one fast link).** A link that is fast enough flags its whole superlink, however slow the others are. -/
theorem C214_one_fast (B : Blocks t n J L) {g : ℝ} {Q A W : ℕ → ℝ} {k j i : ℕ} (hk : k < t.NK)
    (hj : j ≤ n k) (hi : i < n k) (h : (n k : ℝ) ≤ linkFroude g Q A W (L k + i)) :
    supercritical t (linkFroude g Q A W) (J k + j) = true := by
  rw [C214_flag B _ hk hj]
  refine h.trans (Finset.single_le_sum (f := fun i => linkFroude g Q A W (L k + i)) (fun a _ => ?_) (Finset.mem_range.2 hi))
  unfold linkFroude froude safeDivide
  split_ifs <;> positivity

/-- **C214 (direction).** The flag does not depend on the direction of the flows: a superlink flowing fast towards its
upstream end is flagged, and marched from that end, all the same. -/
theorem C214_reverse (g : ℝ) (Q A W : ℕ → ℝ) (I : ℕ) :
    supercritical t (linkFroude g (fun i => -Q i) A W) I = supercritical t (linkFroude g Q A W) I := by
  have : linkFroude g (fun i => -Q i) A W = linkFroude g Q A W := by
    funext i
    simp only [linkFroude, froude, safeDivide]
    split_ifs <;> simp [neg_div, abs_neg]
  rw [this]

/-- **C214 (the two solves share the superlinks).** With the flags of a pass with inertial damping, the forward solve
limited to flagged superlinks followed by the backward solve limited to the others succeeds and keeps what the first has done inside
every flagged superlink. -/
theorem C214_split {K : Type*} [Field K] [LinearOrder K] [IsStrictOrderedRing K] (B : Blocks t n J L) (f : Fwd K)
    (bw : Bwd K) (x : Ends K) (Fr : ℕ → ℝ) (old : Option (ℕ → Bool)) {fuel : ℕ} (hf : ∀ k, k < t.NK → n k ≤ fuel + 1) (s : HQ K) :
    ∃ s1 s2, forwardsOnly t f bw x true (passRegime t true Fr old) fuel s = some (some s1) ∧
      backwardsOnly t f bw x true (passRegime t true Fr old) fuel s1 = some (some s2) ∧
      ∀ k, k < t.NK → (n k : ℝ) ≤ ∑ i ∈ Finset.range (n k), Fr (L k + i) →
        (∀ j, j ≤ n k → s2.h (J k + j) = s1.h (J k + j)) ∧
        ∀ j, 1 ≤ j → j + 1 < n k → s2.Q (L k + j) = s1.Q (L k + j) := by
  obtain ⟨s1, s2, h1, h2, h⟩ := C127_split B f bw x (supercritical t Fr) (fun k hk j hj => flag_const B Fr hk hj) hf s
  refine ⟨s1, s2, ?_, ?_, fun k hk hs => h k hk ?_⟩
  · simp [forwardsOnly, passRegime, h1]
  · simp [backwardsOnly, passRegime, h2]
  · exact (C214_flag B Fr (j := 0) hk (Nat.zero_le _)).2 hs

/-- **C214, refuted without inertial damping.** However many passes have been made, the flags do not exist and both
one-sided solves raise. -/
theorem C214_undamped {K : Type*} [Field K] [LinearOrder K] (Frs : List (ℕ → ℝ)) (f : Fwd K)
    (bw : Bwd K) (x : Ends K) (fuel : ℕ) (s : HQ K) :
    let reg := Frs.foldl (fun r Fr => passRegime t false Fr r) none
    forwardsOnly t f bw x true reg fuel s = none ∧ backwardsOnly t f bw x true reg fuel s = none := by
  intro reg
  have : reg = none := by
    show Frs.foldl (fun r Fr => passRegime t false Fr r) none = none
    induction Frs with
    | nil => rfl
    | cons a l ih => exact ih
  rw [this]
  exact ⟨rfl, rfl⟩

/-- Two superlinks with one and two links; the links have Froude numbers 1/2 | 0, 2: only the second is flagged, at all its
three junctions, though its first link is still. -/
example : let Fr : ℕ → ℝ := fun i => if i = 0 then 1 / 2 else if i = 1 then 0 else 2
    supercritical Lsq.mixed Fr 0 = false ∧ supercritical Lsq.mixed Fr 1 = false ∧
    supercritical Lsq.mixed Fr 2 = true ∧ supercritical Lsq.mixed Fr 3 = true ∧ supercritical Lsq.mixed Fr 4 = true := by
  intro Fr
  have B := Lsq.mixed_ordered.toBlocks
  have k0 : 0 < Lsq.mixed.NK := by show 0 < 2; omega
  have k1 : 1 < Lsq.mixed.NK := by show 1 < 2; omega
  have f1 := fun j (hj : j ≤ 2) => (C214_flag B Fr (k := 1) (j := j) k1 hj).2
    (by norm_num [Fr, Finset.sum_range_succ])
  have f0 := fun j (hj : j ≤ 1) => Bool.eq_false_iff.2 fun h => absurd ((C214_flag B Fr (k := 0) (j := j) k0 hj).1 h)
    (by norm_num [Fr])
  exact ⟨f0 0 (by omega), f0 1 (by omega), f1 0 (by omega), f1 1 (by omega), f1 2 (by omega)⟩

end Pipedream.Base
