import Mathlib.Algebra.Order.Field.Basic
import Mathlib.Algebra.BigOperators.Group.Finset.Basic
import Mathlib.Algebra.BigOperators.Ring.Finset
import Mathlib.Algebra.Order.BigOperators.Group.Finset
import Mathlib.Tactic.Ring
import Mathlib.Tactic.Linarith
import Mathlib.Tactic.LinearCombination
import Mathlib.Tactic.FieldSimp
import Mathlib.Tactic.NormNum
import Mathlib.Tactic.Positivity

/-!
# Shared building blocks of the model

* `forRange n body s` models a Python loop `for k in range(n): s = body(k, s)`;
* arrays are functions `ℕ → K`, an assignment `a[i] = v` is `upd a i v`;
* `safeDivide` models `safe_divide` of `nsuperlink.py`;
* `addAt` models `numba_add_at`.
-/

namespace Pipedream

/-- Python `for k in range(n): s = body k s` (loop-carried state `s`). -/
def forRange {σ : Type*} (n : ℕ) (body : ℕ → σ → σ) (s : σ) : σ :=
  match n with
  | 0 => s
  | n + 1 => body n (forRange n body s)

@[simp] theorem forRange_zero {σ : Type*} (body : ℕ → σ → σ) (s : σ) :
    forRange 0 body s = s := rfl

theorem forRange_succ {σ : Type*} (n : ℕ) (body : ℕ → σ → σ) (s : σ) :
    forRange (n + 1) body s = body n (forRange n body s) := rfl

/-- Loop invariant rule. -/
theorem forRange_inv {σ : Type*} (Inv : ℕ → σ → Prop) (n : ℕ) (body : ℕ → σ → σ) (s : σ)
    (h0 : Inv 0 s) (hs : ∀ k, k < n → ∀ s, Inv k s → Inv (k + 1) (body k s)) :
    Inv n (forRange n body s) := by
  induction n with
  | zero => exact h0
  | succ n ih =>
    exact hs n (Nat.lt_succ_self n) _ (ih (fun k hk => hs k (Nat.lt_succ_of_lt hk)))

/-- Array assignment `a[i] = v`. -/
def upd {K : Type*} (a : ℕ → K) (i : ℕ) (v : K) : ℕ → K := fun j => if j = i then v else a j

@[simp] theorem upd_same {K : Type*} (a : ℕ → K) (i : ℕ) (v : K) : upd a i v i = v := by
  simp [upd]

theorem upd_other {K : Type*} (a : ℕ → K) {i j : ℕ} (v : K) (h : j ≠ i) : upd a i v j = a j := by
  simp [upd, h]

/-- Matrix assignment `A[i, j] = v`. -/
def upd2 {K : Type*} (A : ℕ → ℕ → K) (i j : ℕ) (v : K) : ℕ → ℕ → K :=
  fun r c => if r = i ∧ c = j then v else A r c

theorem upd2_apply {K : Type*} (A : ℕ → ℕ → K) (i j : ℕ) (v : K) (r c : ℕ) :
    upd2 A i j v r c = if r = i ∧ c = j then v else A r c := rfl

variable {K : Type*}

/-- `safe_divide` — nsuperlink.py 2162–2168 (and `safe_divide_vec`, 2170–2176, elementwise;
nquality.py 1090–1102 is the same code). -/
def safeDivide [Field K] [DecidableEq K] (num den : K) : K :=
  if den = 0 then 0 else num / den

theorem safeDivide_of_ne [Field K] [DecidableEq K] (num : K) {den : K} (h : den ≠ 0) :
    safeDivide num den = num / den := by
  simp [safeDivide, h]

/-- In exact arithmetic with `x / 0 = 0` the guard is invisible; theorems that use this lemma always
come with a separate proof that the denominator is not zero. -/
theorem safeDivide_eq [Field K] [DecidableEq K] (num den : K) :
    safeDivide num den = num / den := by
  unfold safeDivide; split
  · next h => simp [h]
  · rfl

/-- `numba_add_at(a, indices, b)` — nsuperlink.py 3041–3048 (nquality.py 1501–1506).
`n = len(indices)`. -/
def addAt [Add K] (a : ℕ → K) (indices : ℕ → ℕ) (b : ℕ → K) (n : ℕ) : ℕ → K :=
  forRange n (fun k a => upd a (indices k) (a (indices k) + b k)) a

/-- Scatter-add is a sum over the elements mapped to the entry. -/
theorem addAt_apply [AddCommMonoid K] (a : ℕ → K) (indices : ℕ → ℕ) (b : ℕ → K) (n j : ℕ) :
    addAt a indices b n j
      = a j + ∑ k ∈ Finset.range n, if indices k = j then b k else 0 := by
  induction n with
  | zero => simp [addAt]
  | succ n ih =>
    unfold addAt at ih ⊢
    rw [forRange_succ, Finset.sum_range_succ]
    by_cases h : j = indices n
    · subst h
      simp only [upd_same, if_true]
      rw [ih, add_assoc]
    · rw [upd_other _ _ h, ih, if_neg (fun h' => h h'.symm), add_zero]

/-- `np.minimum(np.maximum(x, lo), hi)`: the clamp used throughout (max first, then min). -/
def clampMaxMin [LinearOrder K] (lo hi x : K) : K := min (max x lo) hi

theorem clampMaxMin_le [LinearOrder K] (lo hi x : K) : clampMaxMin lo hi x ≤ hi := min_le_right _ _

theorem le_clampMaxMin [LinearOrder K] {lo hi : K} (x : K) (h : lo ≤ hi) :
    lo ≤ clampMaxMin lo hi x := le_min (le_max_right _ _) h

theorem clampMaxMin_eq_self [LinearOrder K] {lo hi x : K} (h1 : lo ≤ x) (h2 : x ≤ hi) :
    clampMaxMin lo hi x = x := by
  simp [clampMaxMin, max_eq_left h1, min_eq_left h2]

end Pipedream
