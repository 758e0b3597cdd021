import Verif.FilterShapeModel
import Mathlib.Tactic.SplitIfs

/-!
# C199: the matrices handed to the Kalman filter

The documentation of `Simulation` gives `Qcov : (M x M)`, `Rcov : (M x M)`, `C : (M x a)`, `H : (b x M)`; that of
`kalman_filter` gives `Z : (b x 1)`, `H : (M x b)`, `C : (a x M)`. A user expects that a matrix is used as given
and that matrices of the documented shapes can be used.

Proved: a number stands for a multiple of the identity and a vector for a diagonal matrix; a matrix is used as
given **iff it does not have exactly one column** — of a column only the first entry is kept, so that a filter with
a single noise signal cannot be built. Matrices of the right shapes are accepted, and the documented shapes are
right only for `a = M`, `b = M`: a scalar or default `Qcov` fits `C` iff `a = M`, a scalar or default `Rcov` fits
`H` iff `b = M`. The shapes documented at `kalman_filter` never give a right-hand side of the model's shape.
-/

namespace Pipedream.Kalman

section
variable {K : Type*} [MulZeroOneClass K]

/-- **C199, number.** A number stands for that multiple of the identity. -/
theorem C199_number (M : ℕ) (d : Nd K) (x : K) :
    take M d (.number x) = .ok (.mat M M fun i j => if i = j then x else 0) := by
  simp [take]

/-- **C199, vector.** A vector stands for the diagonal matrix with its entries. -/
theorem C199_vector (M : ℕ) (d : Nd K) (n : ℕ) (v : ℕ → K) :
    take M d (.array (.vec n v)) = .ok (.mat n n fun i j => if i = j then v i else 0) := rfl

/-- **C199, matrix.** A matrix (with at least one row) is used as given iff it does not have exactly one column. -/
theorem C199_matrix_iff (M : ℕ) (d : Nd K) {r c : ℕ} (hr : 0 < r) (X : ℕ → ℕ → K) :
    take M d (.array (.mat r c X)) = .ok (.mat r c X) ↔ c ≠ 1 := by
  simp only [take]
  split_ifs with h
  · have : c = 1 := by
      have : r * 1 = r * c := by rw [mul_one]; exact h
      exact (Nat.eq_of_mul_eq_mul_left hr this).symm
    simp [npDiag, this]
  · simp only [ne_eq, true_iff]
    rintro rfl
    exact h (mul_one r).symm

/-- **C199 fails for a column**: of a matrix with one column the constructor keeps the first entry, as a vector of
length one. -/
theorem C199_column (M : ℕ) (d : Nd K) {r : ℕ} (hr : 0 < r) (X : ℕ → ℕ → K) :
    take M d (.array (.mat r 1 X)) = .ok (.vec 1 fun i => X i i) := by
  have : min r 1 = 1 := by omega
  simp [take, npDiag, this]

/-- Numbers wrapped as arrays without dimensions, tables and lists are exceptions. -/
theorem C199_other (M : ℕ) (d : Nd K) :
    (∀ x, take M d (.array (.scal x)) = .error .index) ∧ (∀ r c, take M d (.table r c) = .error .assertion) ∧
      take M d .list = .error .attribute := ⟨fun _ => rfl, fun _ _ => rfl, rfl⟩

/-- **C199 fails for a single signal**: whatever is given for `Qcov`, with an `M × 1` matrix `C` (the documented
shape for one signal) the initial covariance is not a matrix: the constructor raises, or the covariance is a
number. -/
theorem C199_single_signal (M : ℕ) {r : ℕ} (hr : 0 < r) (X : ℕ → ℕ → K) (q : MatArg K) {C Q : Nd K}
    (hC : take M (eye M) (.array (.mat r 1 X)) = .ok C) (_hQ : take M (zeros M) q = .ok Q) :
    initialShape C.shape Q.shape = none ∨ initialShape C.shape Q.shape = some .s0 := by
  rw [C199_column M _ hr] at hC
  cases hC
  cases Q with
  | scal x => exact .inl rfl
  | vec n v =>
    by_cases h : 1 = n <;> simp [initialShape, noiseShape, Nd.shape, Shape.mm, h]
  | mat r' c' Y =>
    by_cases h : 1 = r'
    · subst h
      by_cases h' : c' = 1 <;> simp [initialShape, noiseShape, Nd.shape, Shape.mm, Shape.t, h']
    · simp [initialShape, noiseShape, Nd.shape, Shape.mm, h]

/-- **C199, process noise.** With a matrix `C` of `a ≠ 1` columns and `Qcov` a number or left out, the constructor
succeeds iff `a = M`. -/
theorem C199_signals_iff (M : ℕ) {r a : ℕ} (hr : 0 < r) (ha : a ≠ 1) (X : ℕ → ℕ → K) {q : MatArg K}
    (hq : q = .none ∨ ∃ x, q = .number x) {C Q : Nd K}
    (hC : take M (eye M) (.array (.mat r a X)) = .ok C) (hQ : take M (zeros M) q = .ok Q) :
    (∃ s, initialShape C.shape Q.shape = some s) ↔ a = M := by
  rw [(C199_matrix_iff M _ hr X).2 ha] at hC
  cases hC
  have sq : Q.shape = .s2 M M := by
    rcases hq with rfl | ⟨x, rfl⟩ <;> (simp only [take] at hQ; cases hQ; rfl)
  rw [sq]
  by_cases h : a = M
  · subst h; simp [initialShape, noiseShape, Nd.shape, Shape.mm, Shape.t]
  · simp [initialShape, noiseShape, Nd.shape, Shape.mm, h]

end

/-- The shapes that fit the formulas of the filter: `b` observations, `a` noise signals. -/
structure Fits (M a b : ℕ) (Z P H C Q R : Shape) : Prop where
  Z : Z = .s1 b
  P : P = .s2 M M
  H : H = .s2 b M
  C : C = .s2 M a
  Q : Q = .s2 a a
  R : R = .s2 b b

@[simp] theorem bcDim_self (a : ℕ) : bcDim a a = some a := by simp [bcDim]

theorem mm22 (a b c : ℕ) : (Shape.s2 a b).mm (.s2 b c) = some (.s2 a c) := by simp [Shape.mm]

theorem mm21 (a b : ℕ) : (Shape.s2 a b).mm (.s1 b) = some (.s1 a) := by simp [Shape.mm]

theorem bc22 (a b : ℕ) : (Shape.s2 a b).bc (.s2 a b) = some (.s2 a b) := by simp [Shape.bc]

theorem bc11 (a : ℕ) : (Shape.s1 a).bc (.s1 a) = some (.s1 a) := by simp [Shape.bc]

theorem noise_fits (M a : ℕ) : noiseShape (.s2 M a) (.s2 a a) = some (.s2 M M) := by
  simp [noiseShape, Shape.t, mm22]

/-- The prior covariance only depends on the shape of the noise. -/
theorem prior_eq (M : ℕ) (C Q : Shape) :
    priorShape M (.s2 M M) C Q = (noiseShape C Q).bind (Shape.s2 M M).bc := by
  simp [priorShape, mm22]

theorem prior_fits (M a : ℕ) : priorShape M (.s2 M M) (.s2 M a) (.s2 a a) = some (.s2 M M) := by
  simp [prior_eq, noise_fits, bc22]

theorem gain_fits (M b : ℕ) : gainShape (.s2 M M) (.s2 b M) (.s2 b b) = some (.s2 M b, .s2 b b) := by
  simp [gainShape, Shape.t, mm22, bc22, Shape.inv]

theorem post_fits (M b : ℕ) : postShape M (.s2 M M) (.s2 b M) (.s2 M b) = some (.s2 M M) := by
  simp [postShape, mm22, bc22]

theorem rhs_fits (M b : ℕ) {Z : Shape} (hZ : Z.bc (.s1 b) = some (.s1 b)) :
    rhsShape M Z (.s2 b M) (.s2 M b) = some (.s1 M) := by
  simp [rhsShape, mm21, hZ, bc11]

theorem kernel_fits {M a b : ℕ} {Z : Shape} (hZ : Z.bc (.s1 b) = some (.s1 b)) :
    kernelShape M Z (.s2 M M) (.s2 b M) (.s2 M a) (.s2 a a) (.s2 b b) = some (.s1 M, .s2 M M, .s2 b b) := by
  simp [kernelShape, prior_fits, gain_fits, post_fits, rhs_fits M b hZ]

/-- **C199, accepted.** Matrices of fitting shapes are accepted, and the results have the model's shapes. -/
theorem C199_fits {M a b : ℕ} {Z P H C Q R : Shape} (f : Fits M a b Z P H C Q R) :
    kernelShape M Z P H C Q R = some (.s1 M, .s2 M M, .s2 b b) := by
  obtain ⟨rfl, rfl, rfl, rfl, rfl, rfl⟩ := f
  exact kernel_fits (bc11 b)

/-- The constructor gives fitting shapes for matrices with more than one column and for the vector and number forms:
`b` observations with a `b × b` (or diagonal) `Rcov`. -/
theorem C199_accepted {K : Type*} [MulZeroOneClass K] {M a b : ℕ} (hM : 1 < M) (ha : 1 < a) (hb : 0 < b)
    (X Y : ℕ → ℕ → K) (q r : ℕ → K) {H C Q R : Nd K}
    (hH : take M (eye M) (.array (.mat b M X)) = .ok H) (hC : take M (eye M) (.array (.mat M a Y)) = .ok C)
    (hQ : take M (zeros M) (.array (.vec a q)) = .ok Q) (hR : take M (zeros M) (.array (.vec b r)) = .ok R) :
    initialShape C.shape Q.shape = some (.s2 M M) ∧
      kernelShape M (.s1 b) (.s2 M M) H.shape C.shape Q.shape R.shape = some (.s1 M, .s2 M M, .s2 b b) := by
  rw [(C199_matrix_iff M _ hb X).2 (by omega)] at hH
  rw [(C199_matrix_iff M _ (by omega) Y).2 (by omega)] at hC
  cases hH; cases hC; cases hQ; cases hR
  refine ⟨?_, C199_fits ⟨rfl, rfl, rfl, rfl, rfl, rfl⟩⟩
  simp [initialShape, noiseShape, Nd.shape, npDiag, Shape.mm, Shape.t]

/-- **C199, measurement noise.** If everything else fits, an `M × M` matrix `Rcov` — as documented, and what a number
or the default stand for — is accepted iff there are as many observations as superjunctions. -/
theorem C199_observations_iff {M a b : ℕ} (hM : 1 < M) :
    (∃ s, kernelShape M (.s1 b) (.s2 M M) (.s2 b M) (.s2 M a) (.s2 a a) (.s2 M M) = some s) ↔ b = M := by
  constructor
  · rintro ⟨s, hs⟩
    by_contra h
    have h' : ¬ M = b := fun e => h e.symm
    have h2 : ¬ M = 1 := by omega
    have g : gainShape (.s2 M M) (.s2 b M) (.s2 M M) = none := by
      by_cases h1 : b = 1
      · subst h1
        simp [gainShape, Shape.t, mm22, Shape.bc, bcDim, h, Shape.inv]
        simp [Shape.mm, h]
      · simp [gainShape, Shape.t, mm22, Shape.bc, bcDim, h, h1, h2]
    simp [kernelShape, prior_fits, g] at hs
  · rintro rfl
    exact ⟨_, C199_fits ⟨rfl, rfl, rfl, rfl, rfl, rfl⟩⟩

/-- With the shapes documented at `kalman_filter` the noise is `a × a`; added to the `M × M` covariance it is accepted
iff `a` is `M` or 1, unless `M = 1`. -/
theorem prior_documented (M a : ℕ) :
    priorShape M (.s2 M M) (.s2 a M) (.s2 M M) =
      if a = M ∨ a = 1 then some (.s2 M M) else if M = 1 then some (.s2 a a) else none := by
  have e : noiseShape (.s2 a M) (.s2 M M) = some (.s2 a a) := by simp [noiseShape, Shape.t, mm22]
  rw [prior_eq, e]
  by_cases h : M = a
  · subst h; simp [Shape.bc]
  · have h' : ¬ a = M := fun e => h e.symm
    by_cases h1 : a = 1
    · subst h1
      simp [Shape.bc, bcDim, h]
    · by_cases h2 : M = 1
      · subst h2; simp [Shape.bc, bcDim, h, h']
      · simp [Shape.bc, bcDim, h, h', h1, h2]

/-- The filter with the shapes documented at `kalman_filter`. -/
theorem kernel_documented (M a b : ℕ) :
    kernelShape M (.s2 b 1) (.s2 M M) (.s2 M b) (.s2 a M) (.s2 M M) (.s2 M M) =
      if b = M ∧ (a = M ∨ a = 1) then some (.s2 M M, .s2 M M, .s2 M M) else none := by
  have sq : (Shape.s2 M 1).bc (.s1 M) = some (.s2 M M) := by
    by_cases h : 1 = M
    · subst h; simp [Shape.bc]
    · simp [Shape.bc, bcDim, h]
  have r : rhsShape M (.s2 M 1) (.s2 M M) (.s2 M M) = some (.s2 M M) := by
    have u : (Shape.s1 M).bc (.s2 M M) = some (.s2 M M) := by simp [Shape.bc]
    simp [rhsShape, mm21, mm22, sq, u]
  by_cases h : a = M ∨ a = 1
  · by_cases hb : b = M
    · subst hb
      simp [kernelShape, prior_documented, h, gain_fits, post_fits, r]
    · have g : gainShape (.s2 M M) (.s2 M b) (.s2 M M) = none := by simp [gainShape, Shape.mm, hb]
      simp [kernelShape, prior_documented, h, g, hb]
  · by_cases hM : M = 1
    · subst hM
      have ha : ¬ a = 1 := fun e => h (.inr e)
      by_cases hb : b = a
      · subst hb
        have u : ∀ L, rhsShape 1 (.s2 b 1) (.s2 1 b) L = none := fun L => by simp [rhsShape, Shape.mm, ha]
        simp [kernelShape, u, ha]
      · have g : gainShape (.s2 a a) (.s2 1 b) (.s2 1 1) = none := by simp [gainShape, Shape.mm, hb]
        simp [kernelShape, prior_documented, ha, g]
    · simp [kernelShape, prior_documented, h, hM]

/-- **C199 fails for the shapes documented at `kalman_filter`** (`Z : b × 1`, `H : M × b`, `C : a × M`, `Qcov`, `Rcov`,
`P_x_k_k : M × M`): whenever they are accepted the new right-hand side is an `M × M` matrix, not a vector. -/
theorem C199_documented {M a b : ℕ} {s : Shape × Shape × Shape}
    (hs : kernelShape M (.s2 b 1) (.s2 M M) (.s2 M b) (.s2 a M) (.s2 M M) (.s2 M M) = some s) :
    s.1 = .s2 M M := by
  rw [kernel_documented] at hs
  split_ifs at hs
  cases hs
  rfl

/-- They are accepted iff `b = M` and `a` is `M` or 1. -/
theorem C199_documented_iff {M a b : ℕ} :
    (∃ s, kernelShape M (.s2 b 1) (.s2 M M) (.s2 M b) (.s2 a M) (.s2 M M) (.s2 M M) = some s) ↔
      b = M ∧ (a = M ∨ a = 1) := by
  rw [kernel_documented]
  split_ifs with h <;> simp [h]

/-- **A single observation for many.** An observation vector of length one (or a number) is accepted for any number of
observed superjunctions, and used for each of them. -/
theorem C199_one_for_all {M a b : ℕ} {Z : Shape} (hZ : Z = .s0 ∨ Z = .s1 1) :
    kernelShape M Z (.s2 M M) (.s2 b M) (.s2 M a) (.s2 a a) (.s2 b b) = some (.s1 M, .s2 M M, .s2 b b) := by
  refine kernel_fits ?_
  rcases hZ with rfl | rfl
  · rfl
  · by_cases h : 1 = b
    · subst h; simp [Shape.bc]
    · simp [Shape.bc, bcDim, h]

/-- Three superjunctions, one noise signal entering the first two: the column `(1, 2, 0)` is replaced by its first
entry, and with the default `Qcov` the constructor raises. -/
example :
    take 3 (eye 3) (.array (.mat 3 1 fun i _ => if i = 0 then (1 : ℚ) else if i = 1 then 2 else 0)) =
        .ok (.vec 1 fun i => if i = 0 then 1 else if i = 1 then 2 else 0) ∧
      initialShape (.s1 1) (.s2 3 3) = none := ⟨C199_column 3 _ (by norm_num) _, rfl⟩

/-- Two observations at three superjunctions with the documented `3 × 3` covariance are rejected, with a `2 × 2` one
accepted. -/
example :
    (¬ ∃ s, kernelShape 3 (.s1 2) (.s2 3 3) (.s2 2 3) (.s2 3 3) (.s2 3 3) (.s2 3 3) = some s) ∧
      kernelShape 3 (.s1 2) (.s2 3 3) (.s2 2 3) (.s2 3 3) (.s2 3 3) (.s2 2 2) =
        some (.s1 3, .s2 3 3, .s2 2 2) :=
  ⟨fun h => by simpa using (C199_observations_iff (by norm_num)).1 h, C199_fits ⟨rfl, rfl, rfl, rfl, rfl, rfl⟩⟩

end Pipedream.Kalman
