import Verif.KalmanModel
import Verif.NetworkModel
import Mathlib.LinearAlgebra.Matrix.ToLinearEquiv
import Mathlib.LinearAlgebra.Matrix.Notation

/-!
# Properties of the Kalman filter

C50 (covariance, state, fixed point), C51 (square-root option), C70 (fixed heads), C71 (square-root and
plain filter), C72 (default covariances), C73 (transition used for the covariance).
-/

set_option linter.unusedSectionVars false
set_option linter.unusedSimpArgs false
set_option linter.unnecessarySeqFocus false

namespace Pipedream.Kalman

open Matrix

variable {K : Type*} [Field K] [LinearOrder K] [IsStrictOrderedRing K]
variable {n m a : Type*} [Fintype n] [DecidableEq n] [Fintype m] [DecidableEq m] [Fintype a]
  [DecidableEq a]

/-! ### Specification -/

/-- A covariance matrix: symmetric with a non-negative quadratic form. -/
def PSD {n : Type*} [Fintype n] (P : Matrix n n K) : Prop :=
  Pᵀ = P ∧ ∀ x : n → K, 0 ≤ x ⬝ᵥ (P *ᵥ x)

/-- The covariance left by a linear correction with an arbitrary gain `X` (prediction covariance `Pp`,
observation matrix `H`, observation noise `R`). -/
def gainCov (Pp : Matrix n n K) (H : Matrix m n K) (R : Matrix m m K) (X : Matrix n m K) :
    Matrix n n K :=
  (1 - X * H) * Pp * (1 - X * H)ᵀ + X * R * Xᵀ

/-- Covariance of `Φ x + C w` for independent `x ~ P`, `w ~ Q`, where `Φ` is the transition of the
semi-implicit system `A1 x' = A2 x + …`. -/
def IsPredicted (A1 A2 P : Matrix n n K) (C : Matrix n a K) (Q : Matrix a a K) (Pp : Matrix n n K) :
    Prop :=
  ∀ Φ : Matrix n n K, A1 * Φ = A2 → Pp = Φ * P * Φᵀ + C * Q * Cᵀ

theorem PSD.add {n : Type*} [Fintype n] {P Q : Matrix n n K} (hP : PSD P) (hQ : PSD Q) :
    PSD (P + Q) := by
  refine ⟨by rw [transpose_add, hP.1, hQ.1], fun x => ?_⟩
  rw [add_mulVec, dotProduct_add]
  exact add_nonneg (hP.2 x) (hQ.2 x)

theorem PSD.congr {n m : Type*} [Fintype n] [Fintype m] {P : Matrix m m K} (hP : PSD P)
    (X : Matrix n m K) : PSD (X * P * Xᵀ) := by
  refine ⟨by rw [transpose_mul, transpose_mul, transpose_transpose, hP.1, Matrix.mul_assoc],
    fun x => ?_⟩
  have h : x ⬝ᵥ ((X * P * Xᵀ) *ᵥ x) = (Xᵀ *ᵥ x) ⬝ᵥ (P *ᵥ (Xᵀ *ᵥ x)) := by
    rw [← mulVec_mulVec, ← mulVec_mulVec, dotProduct_mulVec, ← mulVec_transpose]
  rw [h]
  exact hP.2 _

theorem psd_one : PSD (1 : Matrix n n K) := by
  refine ⟨transpose_one, fun x => ?_⟩
  rw [one_mulVec]
  exact Finset.sum_nonneg fun i _ => mul_self_nonneg _

theorem psd_zero : PSD (0 : Matrix n n K) := ⟨transpose_zero, fun x => by rw [zero_mulVec, dotProduct_zero]⟩

theorem PSD.smul {P : Matrix n n K} (hP : PSD P) {c : K} (hc : 0 ≤ c) : PSD (c • P) := by
  refine ⟨by rw [transpose_smul, hP.1], fun x => ?_⟩
  rw [smul_mulVec, dotProduct_smul, smul_eq_mul]
  exact mul_nonneg hc (hP.2 x)

/-! ### What one update computes -/

theorem npInv_ok {A B : Matrix n n K} (h : npInv A = .ok B) : A.det ≠ 0 ∧ B = A⁻¹ := by
  unfold npInv at h
  split at h
  · exact absurd h (by simp)
  · rename_i hd; exact ⟨hd, (Except.ok.inj h).symm⟩

theorem npInv_of {A : Matrix n n K} (h : A.det ≠ 0) : npInv A = .ok A⁻¹ := if_neg h

theorem right_cancel {p : Type*} {S : Matrix m m K} (hS : S.det ≠ 0) {X Y : Matrix p m K}
    (h : X * S = Y * S) : X = Y := by
  have := congrArg (fun M => M * S⁻¹) h
  simpa only [Matrix.mul_assoc, mul_nonsing_inv _ (Ne.isUnit hS), Matrix.mul_one] using this

/-- Predicted covariance as the code computes it. -/
noncomputable abbrev pred (A1 A2 P : Matrix n n K) (C : Matrix n a K) (Q : Matrix a a K) :
    Matrix n n K :=
  A1⁻¹ * A2 * P * A2ᵀ * (A1⁻¹)ᵀ + C * Q * Cᵀ

theorem pred_isPredicted {A1 A2 P : Matrix n n K} (h : A1.det ≠ 0) (C : Matrix n a K)
    (Q : Matrix a a K) : IsPredicted A1 A2 P C Q (pred A1 A2 P C Q) := by
  intro Φ hΦ
  have : Φ = A1⁻¹ * A2 := by
    rw [← hΦ, ← Matrix.mul_assoc, nonsing_inv_mul _ (Ne.isUnit h), Matrix.one_mul]
  rw [this, transpose_mul]
  simp only [pred, Matrix.mul_assoc]

theorem pred_psd {A1 A2 P : Matrix n n K} {C : Matrix n a K} {Q : Matrix a a K} (hP : PSD P)
    (hQ : PSD Q) : PSD (pred A1 A2 P C Q) := by
  refine PSD.add ?_ (hQ.congr C)
  have := hP.congr (A1⁻¹ * A2)
  rw [transpose_mul] at this
  simpa only [Matrix.mul_assoc] using this

/-- Everything the update returns, in terms of the innovation covariance `S` and gain `L`. -/
theorem kalman_ok {Z : m → K} {P A1 A2 : Matrix n n K} {b : n → K} {H : Matrix m n K}
    {C : Matrix n a K} {Q : Matrix a a K} {R : Matrix m m K} {o : Out K n m}
    (h : kalman Z P A1 A2 b H C Q R = .ok o) :
    A1.det ≠ 0 ∧ (H * pred A1 A2 P C Q * Hᵀ + R).det ≠ 0 ∧
    ∃ L : Matrix n m K, L * (H * pred A1 A2 P C Q * Hᵀ + R) = pred A1 A2 P C Q * Hᵀ ∧
      o.P = (1 - L * H) * pred A1 A2 P C Q ∧ o.Pzz = H * pred A1 A2 P C Q * Hᵀ + R ∧
      o.bHat = A1 *ᵥ (A1⁻¹ *ᵥ b + L *ᵥ (Z - H *ᵥ (A1⁻¹ *ᵥ b))) := by
  unfold kalman at h
  cases h1 : npInv A1 with
  | error e => rw [h1] at h; exact absurd h (by simp)
  | ok A1i =>
    obtain ⟨hd, rfl⟩ := npInv_ok h1
    rw [h1] at h
    simp only at h
    cases h2 : npInv (H * (A1⁻¹ * A2 * P * A2ᵀ * A1⁻¹ᵀ + C * Q * Cᵀ) * Hᵀ + R) with
    | error e => rw [h2] at h; exact absurd h (by simp)
    | ok Si =>
      obtain ⟨hs, rfl⟩ := npInv_ok h2
      rw [h2] at h
      simp only at h
      have h := (Except.ok.inj h).symm
      subst h
      refine ⟨hd, hs, _, ?_, rfl, rfl, rfl⟩
      rw [Matrix.mul_assoc (pred A1 A2 P C Q * Hᵀ), nonsing_inv_mul _ (Ne.isUnit hs),
        Matrix.mul_one]

/-- The update completes exactly when the head system and the innovation covariance are regular. -/
theorem kalman_ok_iff {Z : m → K} {P A1 A2 : Matrix n n K} {b : n → K} {H : Matrix m n K}
    {C : Matrix n a K} {Q : Matrix a a K} {R : Matrix m m K} :
    (∃ o, kalman Z P A1 A2 b H C Q R = .ok o) ↔
      A1.det ≠ 0 ∧ (H * pred A1 A2 P C Q * Hᵀ + R).det ≠ 0 := by
  constructor
  · rintro ⟨o, h⟩
    exact ⟨(kalman_ok h).1, (kalman_ok h).2.1⟩
  · rintro ⟨h1, h2⟩
    unfold kalman
    rw [npInv_of h1]
    simp only
    rw [npInv_of h2]
    exact ⟨_, rfl⟩

/-- The gain against any other gain: the covariances differ by `(X - L) S (X - L)ᵀ`. -/
theorem gain_gap {Pp : Matrix n n K} {H : Matrix m n K} {R : Matrix m m K} {L : Matrix n m K}
    (hPp : Ppᵀ = Pp) (hR : Rᵀ = R) (hL : L * (H * Pp * Hᵀ + R) = Pp * Hᵀ) (X : Matrix n m K) :
    gainCov Pp H R X = (1 - L * H) * Pp + (X - L) * (H * Pp * Hᵀ + R) * (X - L)ᵀ := by
  have hS : (H * Pp * Hᵀ + R)ᵀ = H * Pp * Hᵀ + R := by
    rw [transpose_add, transpose_mul, transpose_mul, transpose_transpose, hPp, hR, Matrix.mul_assoc]
  have hL' : (H * Pp * Hᵀ + R) * Lᵀ = H * Pp := by
    have := congrArg transpose hL
    rw [transpose_mul, hS, transpose_mul, transpose_transpose, hPp] at this
    exact this
  have e : (X - L) * (H * Pp * Hᵀ + R) * (X - L)ᵀ
      = X * (H * Pp * Hᵀ + R) * Xᵀ - X * (H * Pp) - Pp * Hᵀ * Xᵀ + L * (H * Pp) := by
    rw [transpose_sub, Matrix.sub_mul, hL, Matrix.sub_mul, Matrix.mul_sub, Matrix.mul_sub,
      Matrix.mul_assoc X _ Lᵀ, hL', ← hL, Matrix.mul_assoc L _ Lᵀ, hL', hL]
    abel
  rw [e]
  unfold gainCov
  rw [transpose_sub, transpose_one, transpose_mul]
  simp only [Matrix.sub_mul, Matrix.mul_sub, Matrix.one_mul, Matrix.mul_one, Matrix.mul_add,
    Matrix.add_mul, Matrix.mul_assoc]
  abel

theorem post_eq_gainCov {Pp : Matrix n n K} {H : Matrix m n K} {R : Matrix m m K} {L : Matrix n m K}
    (hPp : Ppᵀ = Pp) (hR : Rᵀ = R) (hL : L * (H * Pp * Hᵀ + R) = Pp * Hᵀ) :
    (1 - L * H) * Pp = gainCov Pp H R L := by
  rw [gain_gap hPp hR hL L, sub_self, Matrix.zero_mul, Matrix.zero_mul, add_zero]

/-! ### C50 -/

/-- **C50, covariance.** With covariance matrices as inputs, an update that completes returns a
symmetric positive semidefinite covariance. -/
theorem C50_covariance {Z : m → K} {P A1 A2 : Matrix n n K} {b : n → K} {H : Matrix m n K}
    {C : Matrix n a K} {Q : Matrix a a K} {R : Matrix m m K} {o : Out K n m} (hP : PSD P) (hQ : PSD Q)
    (hR : PSD R) (h : kalman Z P A1 A2 b H C Q R = .ok o) : PSD o.P := by
  obtain ⟨hd, hs, L, hL, hoP, -, -⟩ := kalman_ok h
  have hPp : PSD (pred A1 A2 P C Q) := pred_psd hP hQ
  rw [hoP, post_eq_gainCov hPp.1 hR.1 hL]
  exact (hPp.congr _).add (hR.congr _)

/-- **C50, information is never lost.** The updated covariance is at most the predicted one (in the order
of quadratic forms), and at most the covariance any other gain would leave. -/
theorem C50_optimal {Z : m → K} {P A1 A2 : Matrix n n K} {b : n → K} {H : Matrix m n K}
    {C : Matrix n a K} {Q : Matrix a a K} {R : Matrix m m K} {o : Out K n m} (hP : PSD P) (hQ : PSD Q)
    (hR : PSD R) (h : kalman Z P A1 A2 b H C Q R = .ok o) {Pp : Matrix n n K}
    (hPp : IsPredicted A1 A2 P C Q Pp) :
    PSD (Pp - o.P) ∧ ∀ X : Matrix n m K, PSD (gainCov Pp H R X - o.P) := by
  obtain ⟨hd, hs, L, hL, hoP, -, -⟩ := kalman_ok h
  have hpp : PSD (pred A1 A2 P C Q) := pred_psd hP hQ
  have e : Pp = pred A1 A2 P C Q := by
    have hΦ : A1 * (A1⁻¹ * A2) = A2 := by
      rw [← Matrix.mul_assoc, mul_nonsing_inv _ (Ne.isUnit hd), Matrix.one_mul]
    rw [hPp _ hΦ, ← pred_isPredicted hd C Q _ hΦ]
  have hgen : ∀ X : Matrix n m K, PSD (gainCov Pp H R X - o.P) := by
    intro X
    rw [e, gain_gap hpp.1 hR.1 hL X, hoP, add_sub_cancel_left]
    exact ((hpp.congr H).add hR).congr _
  refine ⟨?_, hgen⟩
  have := hgen 0
  unfold gainCov at this
  simpa using this

/-- **C50, state.** The corrected right-hand side is the one whose solution is the predicted state
plus gain times innovation, where the gain solves `L S = Pp Hᵀ`. -/
theorem C50_state {Z : m → K} {P A1 A2 : Matrix n n K} {b : n → K} {H : Matrix m n K}
    {C : Matrix n a K} {Q : Matrix a a K} {R : Matrix m m K} {o : Out K n m}
    (h : kalman Z P A1 A2 b H C Q R = .ok o) {Pp : Matrix n n K} (hPp : IsPredicted A1 A2 P C Q Pp)
    {L : Matrix n m K} (hL : L * (H * Pp * Hᵀ + R) = Pp * Hᵀ) {x x' : n → K} (hx : A1 *ᵥ x = b)
    (hx' : A1 *ᵥ x' = o.bHat) : x' = x + L *ᵥ (Z - H *ᵥ x) ∧ o.Pzz = H * Pp * Hᵀ + R := by
  obtain ⟨hd, hs, L', hL', -, hz, hb⟩ := kalman_ok h
  have hΦ : A1 * (A1⁻¹ * A2) = A2 := by
    rw [← Matrix.mul_assoc, mul_nonsing_inv _ (Ne.isUnit hd), Matrix.one_mul]
  have e : Pp = pred A1 A2 P C Q := by
    rw [hPp _ hΦ, ← pred_isPredicted hd C Q _ hΦ]
  subst e
  have inj : ∀ u v : n → K, A1 *ᵥ u = A1 *ᵥ v → u = v := by
    intro u v huv
    have := congrArg (fun w => A1⁻¹ *ᵥ w) huv
    simpa [mulVec_mulVec, nonsing_inv_mul _ (Ne.isUnit hd)] using this
  have hLL : L = L' := right_cancel hs (hL.trans hL'.symm)
  have hx0 : A1⁻¹ *ᵥ b = x := by
    rw [← hx, mulVec_mulVec, nonsing_inv_mul _ (Ne.isUnit hd), one_mulVec]
  refine ⟨inj _ _ ?_, hz⟩
  rw [hx', hb, hx0, hLL]

/-- **C50, fixed point.** If the observations agree with the predicted state the right-hand side, hence
the state, is unchanged. -/
theorem C50_agreement {Z : m → K} {P A1 A2 : Matrix n n K} {b : n → K} {H : Matrix m n K}
    {C : Matrix n a K} {Q : Matrix a a K} {R : Matrix m m K} {o : Out K n m}
    (h : kalman Z P A1 A2 b H C Q R = .ok o) {x : n → K} (hx : A1 *ᵥ x = b) (hZ : Z = H *ᵥ x) :
    o.bHat = b := by
  obtain ⟨hd, hs, L, hL, -, -, hb⟩ := kalman_ok h
  have hx0 : A1⁻¹ *ᵥ b = x := by
    rw [← hx, mulVec_mulVec, nonsing_inv_mul _ (Ne.isUnit hd), one_mulVec]
  rw [hb, hx0, hZ, sub_self, mulVec_zero, add_zero, hx]

/-- **C50, exact observations.** With `Rcov = 0` the corrected state reproduces the data. -/
theorem C50_exact_data {Z : m → K} {P A1 A2 : Matrix n n K} {b : n → K} {H : Matrix m n K}
    {C : Matrix n a K} {Q : Matrix a a K} {o : Out K n m}
    (h : kalman Z P A1 A2 b H C Q 0 = .ok o) {x' : n → K} (hx' : A1 *ᵥ x' = o.bHat) :
    H *ᵥ x' = Z := by
  obtain ⟨hd, hs, L, hL, -, -, hb⟩ := kalman_ok h
  rw [add_zero] at hL hs
  have e : x' = A1⁻¹ *ᵥ b + L *ᵥ (Z - H *ᵥ (A1⁻¹ *ᵥ b)) := by
    have := congrArg (fun w => A1⁻¹ *ᵥ w) (hx'.trans hb)
    simpa [mulVec_mulVec, nonsing_inv_mul _ (Ne.isUnit hd)] using this
  have hHL : H * L = 1 := by
    have h1 : H * L * (H * pred A1 A2 P C Q * Hᵀ) = H * pred A1 A2 P C Q * Hᵀ := by
      rw [Matrix.mul_assoc, hL, Matrix.mul_assoc]
    exact right_cancel hs (h1.trans (Matrix.one_mul _).symm)
  rw [e, mulVec_add, mulVec_mulVec _ H L, hHL, one_mulVec]
  abel

/-- **C50, availability.** With a regular head system and positive definite observation noise the
update never raises. -/
theorem C50_completes {Z : m → K} {P A1 A2 : Matrix n n K} {b : n → K} {H : Matrix m n K}
    {C : Matrix n a K} {Q : Matrix a a K} {R : Matrix m m K} (hP : PSD P) (hQ : PSD Q)
    (hR : ∀ v : m → K, v ≠ 0 → 0 < v ⬝ᵥ (R *ᵥ v)) (hA : A1.det ≠ 0) :
    ∃ o, kalman Z P A1 A2 b H C Q R = .ok o := by
  refine kalman_ok_iff.2 ⟨hA, fun hdet => ?_⟩
  obtain ⟨v, hv, hS⟩ := exists_mulVec_eq_zero_iff.2 hdet
  have h1 := hR v hv
  have h2 := ((pred_psd (A1 := A1) (A2 := A2) (C := C) hP hQ).congr H).2 v
  have h3 : v ⬝ᵥ ((H * pred A1 A2 P C Q * Hᵀ + R) *ᵥ v) = 0 := by rw [hS, dotProduct_zero]
  rw [add_mulVec, dotProduct_add] at h3
  linarith

/-! ### The filter inside a simulation -/

/-- What `kalman_filter` leaves behind: heads are the corrected state within the depth limits, time and
iteration count are those of the step, and the covariance is that of the update. -/
theorem filter_ok {Z : m → K} {H : Matrix m n K} {C : Matrix n a K} {Q : Matrix a a K}
    {R : Matrix m m K} {dt : K} {s s' : KSim K n} (h : kalmanFilter Z H C Q R dt s = .ok s') :
    ∃ o, kalman Z s.P s.lhs (a2 s dt) s.b H C Q R = .ok o ∧ s' = { s with
      P := o.P, b := o.bHat
      heads := fun j => min (max ((s.lhs⁻¹ *ᵥ o.bHat) j) (s.zInv j)) (s.zInv j + s.maxDepth j) } := by
  unfold kalmanFilter at h
  cases h1 : kalman Z s.P s.lhs (a2 s dt) s.b H C Q R with
  | error e => rw [h1] at h; exact absurd h (by simp)
  | ok o =>
    rw [h1] at h
    simp only [solveStep] at h
    rw [npInv_of (kalman_ok h1).1] at h
    simp only at h
    refine ⟨o, rfl, ?_⟩
    rw [← Except.ok.inj h]
    simp

/-- **C50, in a simulation.** `kalman_filter` leaves time and iteration count of the step as they
were; the new heads are, up to the configured depth limits, the predicted heads `x` plus gain times
innovation. -/
theorem C50_filter {Z : m → K} {H : Matrix m n K} {C : Matrix n a K} {Q : Matrix a a K}
    {R : Matrix m m K} {dt : K} {s s' : KSim K n} (h : kalmanFilter Z H C Q R dt s = .ok s')
    {Pp : Matrix n n K} (hPp : IsPredicted s.lhs (a2 s dt) s.P C Q Pp)
    {L : Matrix n m K} (hL : L * (H * Pp * Hᵀ + R) = Pp * Hᵀ) {x : n → K} (hx : s.lhs *ᵥ x = s.b) :
    s'.t = s.t ∧ s'.iter = s.iter ∧
    ∀ j, s'.heads j = min (max ((x + L *ᵥ (Z - H *ᵥ x)) j) (s.zInv j)) (s.zInv j + s.maxDepth j) := by
  obtain ⟨o, ho, rfl⟩ := filter_ok h
  refine ⟨rfl, rfl, fun j => ?_⟩
  have hd := (kalman_ok ho).1
  have hx' : s.lhs *ᵥ (s.lhs⁻¹ *ᵥ o.bHat) = o.bHat := by
    rw [mulVec_mulVec, mul_nonsing_inv _ (Ne.isUnit hd), one_mulVec]
  rw [← (C50_state ho hPp hL hx hx').1]

/-- **C50 along a run.** However many assimilations are made, with whatever head systems, step sizes and
observations, the covariance stays symmetric positive semidefinite. -/
theorem C50_run {H : Matrix m n K} {C : Matrix n a K} {Q : Matrix a a K} {R : Matrix m m K}
    (hQ : PSD Q) (hR : PSD R) (os : List (Assim K n m)) : ∀ {s s' : KSim K n}, PSD s.P →
    assimRun H C Q R os s = .ok s' → PSD s'.P := by
  induction os with
  | nil => intro s s' hP h; rw [← Except.ok.inj h]; exact hP
  | cons o os ih =>
    intro s s' hP h
    unfold assimRun at h
    cases h1 : kalmanFilter o.Z H C Q R o.dt { s with lhs := o.lhs, b := o.b, area := o.area } with
    | error e => rw [h1] at h; exact absurd h (by simp)
    | ok s1 =>
      rw [h1] at h
      obtain ⟨out, ho, rfl⟩ := filter_ok h1
      exact ih (C50_covariance (P := s.P) hP hQ hR ho) h

/-- The initial covariance is one, whatever the given `Pxx`-free configuration. -/
theorem C50_initial {C Q : CovArg K n} (hQ : PSD Q.cov) : PSD (initialP C Q none) := hQ.congr _

/-- **C50 along a run whose head systems are regular**, with positive definite observation noise: no
assimilation raises. -/
theorem C50_run_completes {H : Matrix m n K} {C : Matrix n a K} {Q : Matrix a a K} {R : Matrix m m K}
    (hQ : PSD Q) (hR : PSD R) (hR' : ∀ v : m → K, v ≠ 0 → 0 < v ⬝ᵥ (R *ᵥ v))
    (os : List (Assim K n m)) : ∀ {s : KSim K n}, PSD s.P → (∀ o ∈ os, o.lhs.det ≠ 0) →
    ∃ s', assimRun H C Q R os s = .ok s' := by
  induction os with
  | nil => intro s _ _; exact ⟨s, rfl⟩
  | cons o os ih =>
    intro s hP hA
    have hAo := hA o (List.mem_cons_self ..)
    obtain ⟨out, ho⟩ := C50_completes (Z := o.Z) (P := s.P) (A1 := o.lhs)
      (A2 := a2 { s with lhs := o.lhs, b := o.b, area := o.area } o.dt) (b := o.b) (H := H) (C := C)
      hP hQ hR' hAo
    unfold assimRun
    have h1 : ∃ s1, kalmanFilter o.Z H C Q R o.dt { s with lhs := o.lhs, b := o.b, area := o.area }
        = .ok s1 := by
      unfold kalmanFilter
      simp only
      rw [ho]
      simp only [solveStep]
      rw [npInv_of hAo]
      exact ⟨_, rfl⟩
    obtain ⟨s1, hs1⟩ := h1
    rw [hs1]
    obtain ⟨out', ho', rfl⟩ := filter_ok hs1
    exact ih (C50_covariance (P := s.P) hP hQ hR ho') (fun o' h' => hA o' (List.mem_cons_of_mem _ h'))

/-! ### C72: default covariances -/

/-- **C72 fails**: with the default `Qcov`, `Rcov` and `Pxx` the innovation covariance is the zero matrix;
for every non-empty network and all data, the first `kalman_filter` raises `LinAlgError`. -/
theorem C72_defaults_raise [Nonempty n] (Z : n → K) (C H : CovArg K n) (dt : K) (s : KSim K n)
    (hP : s.P = initialP C (.none : CovArg K n) none) :
    kalmanFilter Z H.op C.op (CovArg.none : CovArg K n).cov (CovArg.none : CovArg K n).cov dt s
      = .error .linAlg := by
  have hP0 : s.P = 0 := by
    rw [hP]; show C.op * 0 * _ = 0; rw [Matrix.mul_zero, Matrix.zero_mul]
  unfold kalmanFilter kalman
  by_cases hd : s.lhs.det = 0
  · rw [show npInv s.lhs = .error .linAlg from if_pos hd]
  · rw [npInv_of hd]
    simp only
    have hz : H.op * (s.lhs⁻¹ * a2 s dt * s.P * (a2 s dt)ᵀ * (s.lhs⁻¹)ᵀ
        + C.op * (CovArg.none : CovArg K n).cov * (C.op)ᵀ) * (H.op)ᵀ + (CovArg.none : CovArg K n).cov = 0 := by
      rw [hP0]; show H.op * (_ + C.op * 0 * _) * _ + (0 : Matrix n n K) = 0; simp
    rw [hz, show npInv (0 : Matrix n n K) = .error .linAlg from if_pos det_zero]

/-- **C72 holds once a positive scalar (or vector) observation noise is given.** -/
theorem C72_positive_noise_partial (Z : n → K) (C H : CovArg K n) (Q : CovArg K n) (hQ : PSD Q.cov)
    {v : n → K} (hv : ∀ i, 0 < v i) (dt : K) (s : KSim K n) (hA : s.lhs.det ≠ 0) (hP : PSD s.P) :
    ∃ s', kalmanFilter Z H.op C.op Q.cov (CovArg.vec v).cov dt s = .ok s' := by
  have hR : ∀ w : n → K, w ≠ 0 → 0 < w ⬝ᵥ ((CovArg.vec v).cov *ᵥ w) := by
    intro w hw
    obtain ⟨i, hi⟩ := Function.ne_iff.1 hw
    have e : w ⬝ᵥ ((CovArg.vec v).cov *ᵥ w) = ∑ j, v j * (w j * w j) := by
      show w ⬝ᵥ (Matrix.diagonal v *ᵥ w) = _
      simp only [dotProduct, mulVec_diagonal]
      exact Finset.sum_congr rfl fun j _ => by ring
    rw [e]
    refine Finset.sum_pos' (fun j _ => mul_nonneg (hv j).le (mul_self_nonneg _))
      ⟨i, Finset.mem_univ _, mul_pos (hv i) ?_⟩
    exact mul_self_pos.2 hi
  obtain ⟨o, ho⟩ := C50_completes (Z := Z) (P := s.P) (A1 := s.lhs) (A2 := a2 s dt) (b := s.b)
    (H := H.op) (C := C.op) (Q := Q.cov) hP hQ hR hA
  unfold kalmanFilter
  rw [ho]
  simp only [solveStep]
  rw [npInv_of hA]
  exact ⟨_, rfl⟩

/-! ### C70: fixed heads -/

/-- Row of the inverse of a matrix with a unit row. -/
theorem inv_unit_row {A : Matrix n n K} (hd : A.det ≠ 0) {j : n} (hrow : A j = Pi.single j 1) :
    A⁻¹ j = Pi.single j 1 := by
  have h1 : (A * A⁻¹) j = A⁻¹ j := by
    rw [mul_apply_eq_vecMul, hrow, single_one_vecMul]
    rfl
  rw [← h1, mul_nonsing_inv _ (Ne.isUnit hd)]
  ext i
  rw [one_apply, Pi.single_apply]
  by_cases h : j = i <;> simp [h, eq_comm]

theorem pred_bc_row {A1 P : Matrix n n K} (hd : A1.det ≠ 0) {d : n → K} {C : Matrix n a K}
    {Q : Matrix a a K} {j : n} (hrow : A1 j = Pi.single j 1) (hj : d j = 0) :
    (pred A1 (Matrix.diagonal d) P C Q) j = (C * Q * Cᵀ) j := by
  have h1 : (A1⁻¹ * Matrix.diagonal d) j = 0 := by
    ext i
    rw [mul_diagonal, inv_unit_row hd hrow, Pi.single_apply]
    by_cases h : i = j
    · rw [h, hj, mul_zero]; rfl
    · rw [if_neg h, zero_mul]; rfl
  have h2 : (A1⁻¹ * Matrix.diagonal d * P * (Matrix.diagonal d)ᵀ * (A1⁻¹)ᵀ) j = 0 := by
    simp only [Matrix.mul_assoc (A1⁻¹ * Matrix.diagonal d)]
    rw [mul_apply_eq_vecMul, h1, zero_vecMul]
  show (A1⁻¹ * Matrix.diagonal d * P * (Matrix.diagonal d)ᵀ * (A1⁻¹)ᵀ) j + (C * Q * Cᵀ) j = _
  rw [h2, zero_add]

/-- **C70 where the process noise leaves the boundary alone**: if superjunction `j` has a fixed head
(unit row, right-hand side `H_bc j`) and `C Qcov Cᵀ` has a zero row at `j`, the filter does not change
its right-hand side: the head stays `H_bc j` up to the depth limits. -/
theorem C70_boundary_kept_partial {Z : m → K} {H : Matrix m n K} {C : Matrix n a K} {Q : Matrix a a K}
    {R : Matrix m m K} {dt : K} {s s' : KSim K n} (h : kalmanFilter Z H C Q R dt s = .ok s') {j : n}
    (hbc : s.bc j = true) (hrow : s.lhs j = Pi.single j 1) (hCQ : (C * Q * Cᵀ) j = 0) :
    s'.heads j = min (max (s.b j) (s.zInv j)) (s.zInv j + s.maxDepth j) := by
  obtain ⟨o, ho, rfl⟩ := filter_ok h
  obtain ⟨hd, hs, L, hL, -, -, hb⟩ := kalman_ok ho
  have hpr := pred_bc_row (P := s.P) (C := C) (Q := Q) hd (d := fun j => if s.bc j then 0 else s.area j / dt)
    hrow (by simp [hbc])
  have hLj : L j = 0 := by
    have h1 : (L * (H * pred s.lhs (a2 s dt) s.P C Q * Hᵀ + R)) j = 0 := by
      rw [hL, mul_apply_eq_vecMul]
      show (pred s.lhs (Matrix.diagonal _) s.P C Q) j ᵥ* Hᵀ = 0
      rw [hpr, hCQ, zero_vecMul]
    rw [mul_apply_eq_vecMul] at h1
    have := congrArg (fun v => v ᵥ* (H * pred s.lhs (a2 s dt) s.P C Q * Hᵀ + R)⁻¹) h1
    simpa only [vecMul_vecMul, mul_nonsing_inv _ (Ne.isUnit hs), vecMul_one, zero_vecMul] using this
  have hx : (s.lhs⁻¹ *ᵥ o.bHat) j = s.b j := by
    rw [hb, mulVec_mulVec, nonsing_inv_mul _ (Ne.isUnit hd), one_mulVec]
    show (s.lhs⁻¹ j ⬝ᵥ s.b) + (L j ⬝ᵥ _) = _
    rw [hLj, zero_dotProduct, add_zero, inv_unit_row hd hrow, single_one_dotProduct]
  show min (max ((s.lhs⁻¹ *ᵥ o.bHat) j) _) _ = _
  rw [hx]

/-- **C70 fails for scalar process noise**: with `Qcov = q`, `Rcov = r` (positive scalars) and default `C`,
`H`, every fixed head is pulled from its boundary value towards the observation by the factor
`q / (q + r)`, in every network. -/
theorem C70_boundary_moved {Z : n → K} {q r dt : K} {s s' : KSim K n}
    (h : kalmanFilter Z (CovArg.none : CovArg K n).op (CovArg.none : CovArg K n).op
      (CovArg.scalar q : CovArg K n).cov (CovArg.scalar r : CovArg K n).cov dt s = .ok s')
    (hq : 0 < q) (hr : 0 < r) (hPs : PSD s.P) {j : n} (hbc : s.bc j = true)
    (hrow : s.lhs j = Pi.single j 1) :
    s'.heads j = min (max (s.b j + q / (q + r) * (Z j - s.b j)) (s.zInv j))
      (s.zInv j + s.maxDepth j) := by
  obtain ⟨o, ho, rfl⟩ := filter_ok h
  have ho' : kalman Z s.P s.lhs (a2 s dt) s.b (1 : Matrix n n K) (1 : Matrix n n K)
    (q • (1 : Matrix n n K)) (r • (1 : Matrix n n K)) = .ok o := ho
  obtain ⟨hd, hs, L, hL, -, -, hb⟩ := kalman_ok ho'
  have hpp : PSD (pred s.lhs (a2 s dt) s.P (1 : Matrix n n K) (q • (1 : Matrix n n K))) :=
    pred_psd hPs (psd_one.smul hq.le)
  have hpr : (pred s.lhs (a2 s dt) s.P (1 : Matrix n n K) (q • (1 : Matrix n n K))) j
      = q • Pi.single j 1 := by
    have := pred_bc_row (P := s.P) (C := (1 : Matrix n n K)) (Q := q • (1 : Matrix n n K)) hd
      (d := fun j => if s.bc j then 0 else s.area j / dt) hrow (by simp [hbc])
    rw [transpose_one, Matrix.mul_one, Matrix.one_mul] at this
    refine Eq.trans this ?_
    ext i
    rw [Matrix.smul_apply, Pi.smul_apply, one_apply, Pi.single_apply]
    by_cases hij : j = i <;> simp [hij, eq_comm]
  generalize pred s.lhs (a2 s dt) s.P (1 : Matrix n n K) (q • (1 : Matrix n n K)) = Pp at *
  rw [Matrix.one_mul, transpose_one, Matrix.mul_one] at hL hs
  have hne : q + r ≠ 0 := (add_pos hq hr).ne'
  -- row `j` of the gain
  have hLj : L j = (q / (q + r)) • Pi.single j 1 := by
    have hS : ((q / (q + r)) • Pi.single j (1 : K)) ᵥ* (Pp + r • (1 : Matrix n n K))
        = q • Pi.single j 1 := by
      rw [smul_vecMul, single_one_vecMul]
      show (q / (q + r)) • (Pp j + (r • (1 : Matrix n n K)) j) = _
      rw [hpr]
      ext i
      simp only [Pi.smul_apply, Pi.add_apply, Matrix.smul_apply, one_apply, Pi.single_apply,
        smul_eq_mul]
      by_cases hij : j = i
      · rw [if_pos hij, if_pos hij.symm]; field_simp
      · rw [if_neg hij, if_neg (fun e => hij e.symm)]; ring
    have h1 : L j ᵥ* (Pp + r • (1 : Matrix n n K)) = q • Pi.single j 1 := by
      rw [← mul_apply_eq_vecMul, hL, hpr]
    have := congrArg (fun v => v ᵥ* (Pp + r • (1 : Matrix n n K))⁻¹) (h1.trans hS.symm)
    simpa only [vecMul_vecMul, mul_nonsing_inv _ (Ne.isUnit hs), vecMul_one] using this
  have hx0 : (s.lhs⁻¹ *ᵥ s.b) j = s.b j := by
    show s.lhs⁻¹ j ⬝ᵥ s.b = _
    rw [inv_unit_row hd hrow, single_one_dotProduct]
  have hx : (s.lhs⁻¹ *ᵥ o.bHat) j = s.b j + q / (q + r) * (Z j - s.b j) := by
    rw [hb, mulVec_mulVec, nonsing_inv_mul _ (Ne.isUnit hd), one_mulVec]
    show (s.lhs⁻¹ *ᵥ s.b) j + (L j ⬝ᵥ _) = _
    rw [hx0, hLj, smul_dotProduct, single_one_dotProduct, one_mulVec, smul_eq_mul, Pi.sub_apply, hx0]
  show min (max ((s.lhs⁻¹ *ᵥ o.bHat) j) _) _ = _
  rw [hx]

/-- A single superjunction with a fixed head of 1, noise `q = r = 1`, observation 3: the "fixed" head
becomes 2. -/
theorem C70_moved_example : ∃ s s' : KSim ℚ (Fin 1), s.bc 0 = true ∧ s.lhs 0 = Pi.single 0 1 ∧ s.b 0 = 1 ∧
    kalmanFilter (fun _ => (3 : ℚ)) (CovArg.none : CovArg ℚ (Fin 1)).op (CovArg.none : CovArg ℚ (Fin 1)).op
      (CovArg.scalar 1 : CovArg ℚ (Fin 1)).cov (CovArg.scalar 1 : CovArg ℚ (Fin 1)).cov 1 s = .ok s' ∧
    s'.heads 0 = 2 := by
  let s : KSim ℚ (Fin 1) :=
    { lhs := 1, b := fun _ => 1, area := fun _ => 1, bc := fun _ => true, zInv := fun _ => 0,
      maxDepth := fun _ => 10, t := 0, iter := 0, heads := fun _ => 1, P := 0 }
  have hrow : s.lhs 0 = Pi.single 0 1 := by
    ext i
    rw [Subsingleton.elim i 0, Pi.single_eq_same]
    exact Matrix.one_apply_eq 0
  have hQ : PSD (CovArg.scalar 1 : CovArg ℚ (Fin 1)).cov := by
    show PSD ((1 : ℚ) • (1 : Matrix (Fin 1) (Fin 1) ℚ)); rw [one_smul]; exact psd_one
  have hP : PSD s.P := psd_zero
  have hA : s.lhs.det ≠ 0 := by simp [s]
  obtain ⟨s', hs'⟩ := C72_positive_noise_partial (fun _ => (3 : ℚ)) CovArg.none CovArg.none
    (CovArg.scalar 1) hQ (v := fun _ => 1) (fun _ => one_pos) 1 s hA hP
  have hcov : (CovArg.vec (fun _ => 1) : CovArg ℚ (Fin 1)).cov = (CovArg.scalar 1 : CovArg ℚ (Fin 1)).cov := by
    show Matrix.diagonal (fun _ => (1 : ℚ)) = (1 : ℚ) • (1 : Matrix (Fin 1) (Fin 1) ℚ)
    rw [one_smul, Matrix.diagonal_one]
  rw [hcov] at hs'
  refine ⟨s, s', rfl, hrow, rfl, hs', ?_⟩
  rw [C70_boundary_moved hs' one_pos one_pos hP rfl hrow]
  norm_num [s]

/-! ### C73: the transition used for the covariance -/

/-- Storage that the assembled head equation of superjunction `j` attaches to the previous head: surface
area over the step plus the end stretches of the superlinks meeting there. -/
def storageCoef (net : Network.Net K) (dt : K) (j : ℕ) : K :=
  net.As j / dt + ((∑ k ∈ Finset.range net.links.n, if net.links.Ju k = j then net.links.xi_u k else 0)
    + ∑ k ∈ Finset.range net.links.n, if net.links.Jd k = j then net.links.xi_d k else 0)

theorem ctrlD_add (C : Network.Ctrls K) (D : ℕ → K) (j : ℕ) :
    Network.ctrlD C D j = D j + Network.ctrlD C (fun _ => 0) j := by
  unfold Network.ctrlD
  split
  · rw [add_zero]
  · simp only [addAt_apply]; ring

/-- **C73, what the model does**: a change `d` of the previous heads changes the assembled right-hand side
of a free superjunction by `storageCoef · d`. -/
theorem C73_response (net : Network.Net K) (dt : K) (H d Q0 Hbc : ℕ → K) {j : ℕ}
    (hj : net.bc j = false) :
    Network.assembleB net dt (fun i => H i + d i) Q0 Hbc j - Network.assembleB net dt H Q0 Hbc j
      = storageCoef net dt j * d j := by
  have hD : ∀ h : ℕ → K, Network.assembleD net h j
      = (∑ k ∈ Finset.range net.links.n, if net.links.Ju k = j then -net.links.chi_u k else 0)
        + (∑ k ∈ Finset.range net.links.n, if net.links.Jd k = j then net.links.chi_d k else 0)
        + (∑ k ∈ Finset.range net.links.n, if net.links.Ju k = j then net.links.xi_u k else 0) * h j
        + (∑ k ∈ Finset.range net.links.n, if net.links.Jd k = j then net.links.xi_d k else 0) * h j
        + (Network.ctrlD net.orifices (fun _ => 0) j + Network.ctrlD net.weirs (fun _ => 0) j
          + Network.ctrlD net.pumps (fun _ => 0) j) := by
    intro h
    unfold Network.assembleD
    rw [ctrlD_add, ctrlD_add, ctrlD_add]
    simp only [addAt_apply]
    rw [Finset.sum_mul, Finset.sum_mul]
    have e1 : ∀ k, (if net.links.Ju k = j then net.links.xi_u k * h (net.links.Ju k) else 0)
        = (if net.links.Ju k = j then net.links.xi_u k else 0) * h j := by
      intro k; split
      · rename_i e; rw [e]
      · rw [zero_mul]
    have e2 : ∀ k, (if net.links.Jd k = j then net.links.xi_d k * h (net.links.Jd k) else 0)
        = (if net.links.Jd k = j then net.links.xi_d k else 0) * h j := by
      intro k; split
      · rename_i e; rw [e]
      · rw [zero_mul]
    simp only [e1, e2]
    ring
  unfold Network.assembleB
  rw [hj]
  simp only [Bool.false_eq_true, if_false, hD]
  unfold storageCoef
  ring

/-- **C73, exact condition**: the filter's `A_2` (built with step `dtK`) carries a covariance as the
head equation assembled with step `dt` does, exactly when the two storage coefficients agree. -/
theorem C73_iff (net : Network.Net K) (dt dtK : K) (Q0 Hbc : ℕ → K) {j : ℕ} (hj : net.bc j = false) :
    (∀ H d : ℕ → K, Network.assembleB net dt (fun i => H i + d i) Q0 Hbc j
      - Network.assembleB net dt H Q0 Hbc j = net.As j / dtK * d j)
    ↔ net.As j / dtK = storageCoef net dt j := by
  constructor
  · intro h
    have := h (fun _ => 0) (fun _ => 1)
    rw [C73_response net dt _ _ Q0 Hbc hj, mul_one, mul_one] at this
    exact this.symm
  · intro h H d
    rw [C73_response net dt _ _ Q0 Hbc hj, h]

/-- **C73 holds for superjunctions whose superlinks have no end stretch storage**, for an undivided step. -/
theorem C73_no_stretch_partial (net : Network.Net K) (dt : K) (Q0 Hbc : ℕ → K) {j : ℕ}
    (hj : net.bc j = false) (hu : ∀ k, net.links.Ju k = j → net.links.xi_u k = 0)
    (hd : ∀ k, net.links.Jd k = j → net.links.xi_d k = 0) (H d : ℕ → K) :
    Network.assembleB net dt (fun i => H i + d i) Q0 Hbc j - Network.assembleB net dt H Q0 Hbc j
      = net.As j / dt * d j := by
  refine (C73_iff net dt dt Q0 Hbc hj).2 ?_ H d
  unfold storageCoef
  rw [Finset.sum_eq_zero, Finset.sum_eq_zero, add_zero, add_zero]
  · intro k _; split
    · rename_i e; exact hd k e
    · rfl
  · intro k _; split
    · rename_i e; exact hu k e
    · rfl

/-- **C73 fails wherever a superlink with end storage begins, and after every subdivided step**: with
non-negative end storages, a superlink starting at `j` with positive end storage — or a filter step `dtK` larger
than the assembled step `dt` over a positive area — makes `A_2` strictly too small. -/
theorem C73_understated (net : Network.Net K) {dt dtK : K} (hdt : 0 < dt) (hle : dt ≤ dtK) {j : ℕ}
    (hA : 0 ≤ net.As j) (hu : ∀ k, 0 ≤ net.links.xi_u k) (hd : ∀ k, 0 ≤ net.links.xi_d k)
    (h : (∃ k, k < net.links.n ∧ net.links.Ju k = j ∧ 0 < net.links.xi_u k) ∨
      (dt < dtK ∧ 0 < net.As j)) :
    net.As j / dtK < storageCoef net dt j := by
  have hu0 : ∀ k ∈ Finset.range net.links.n,
      0 ≤ (if net.links.Ju k = j then net.links.xi_u k else 0) := by
    intro k _; split
    · exact hu k
    · exact le_refl _
  have hd0 : 0 ≤ ∑ k ∈ Finset.range net.links.n, if net.links.Jd k = j then net.links.xi_d k else 0 := by
    refine Finset.sum_nonneg fun k _ => ?_
    split
    · exact hd k
    · exact le_refl _
  have hle' : net.As j / dtK ≤ net.As j / dt := div_le_div_of_nonneg_left hA hdt hle
  unfold storageCoef
  rcases h with ⟨k, hk, hkj, hpos⟩ | ⟨hlt, hpos⟩
  · have : 0 < ∑ k ∈ Finset.range net.links.n, if net.links.Ju k = j then net.links.xi_u k else 0 :=
      Finset.sum_pos' hu0 ⟨k, Finset.mem_range.2 hk, by rw [if_pos hkj]; exact hpos⟩
    linarith
  · have := Finset.sum_nonneg hu0
    have : net.As j / dtK < net.As j / dt := div_lt_div_of_pos_left hpos hdt hlt
    linarith

/-! ### C51: the square-root option -/

/-- **C51 fails**: `kalman_filter(SR=True)` never gets past the assignment of the results: if the
square-root routine itself does not raise, the tuple assignment does. -/
theorem C51_square_root_raises (plain : Except KErr (Out K n m))
    (root : Except KErr ((n → K) × Matrix n n K)) :
    filterResults true plain root = .error .linAlg ∨
    filterResults true plain root = .error .unpack := by
  cases root with
  | error e => cases e <;> simp [filterResults]
  | ok r => right; rfl

/-- **C51 for the default option**: the plain update's results are assigned. -/
theorem C51_plain_partial (o : Out K n m) (root : Except KErr ((n → K) × Matrix n n K)) :
    filterResults false (.ok o) root = .ok (.vec o.bHat, .matN o.P, .matM o.Pzz) := rfl

/-! ### C71: square-root and plain filter -/

section Root

variable {r q : ℕ} {Z : Fin q → K} {P A1 A2 : Matrix (Fin r) (Fin r) K} {b : Fin r → K}
  {H : Matrix (Fin q) (Fin r) K} {Q : Matrix (Fin r) (Fin r) K} {R : Matrix (Fin q) (Fin q) K}
  {bHat : Fin r → K} {Pn : Matrix (Fin r) (Fin r) K}

/-- What the square-root routine computes: the plain update with each covariance `X Xᵀ` replaced by
`Xᵀ X`, where `X` is its (lower) Cholesky factor. -/
theorem C71_square_root_result (p : SRPass Z P A1 A2 b H Q R bHat Pn) :
    ∃ Pzz, kalman Z (p.Fᵀ * p.F) A1 A2 b H (1 : Matrix (Fin r) (Fin r) K) (p.Rqᵀ * p.Rq)
      (p.Rrᵀ * p.Rr) = .ok { bHat := bHat, P := Pn, Pzz := Pzz } := by
  have hPp : pred A1 A2 (p.Fᵀ * p.F) (1 : Matrix (Fin r) (Fin r) K) (p.Rqᵀ * p.Rq) = p.Fbarᵀ * p.Fbar := by
    have := p.hFbar
    unfold IsQR at this
    rw [this, transpose_fromRows, fromCols_mul_fromRows]
    simp only [pred, transpose_mul, transpose_transpose, transpose_one, Matrix.mul_one,
      Matrix.one_mul, Matrix.mul_assoc]
  have hS : H * (p.Fbarᵀ * p.Fbar) * Hᵀ + p.Rrᵀ * p.Rr = p.Gᵀ * p.G := by
    have := p.hG
    unfold IsQR at this
    rw [this, transpose_fromRows, fromCols_mul_fromRows]
    simp only [transpose_mul, transpose_transpose, Matrix.mul_assoc]
  have hdetS : (p.Gᵀ * p.G).det ≠ 0 := by
    rw [det_mul, det_transpose]; exact mul_ne_zero p.invG p.invG
  have hSinv : (p.Gᵀ * p.G)⁻¹ = p.G⁻¹ * (p.G⁻¹)ᵀ := by
    rw [Matrix.mul_inv_rev, transpose_nonsing_inv]
  have hL : p.L = p.Fbarᵀ * p.Fbar * Hᵀ * (p.Gᵀ * p.G)⁻¹ := by
    rw [p.hL, hSinv]
    simp only [transpose_mul, transpose_transpose, Matrix.mul_assoc]
  have hLS : p.L * (H * (p.Fbarᵀ * p.Fbar) * Hᵀ + p.Rrᵀ * p.Rr) = p.Fbarᵀ * p.Fbar * Hᵀ := by
    rw [hS, hL, Matrix.mul_assoc _ _ (p.Gᵀ * p.G), nonsing_inv_mul _ (Ne.isUnit hdetS),
      Matrix.mul_one]
  have hPost : (1 - p.L * H) * (p.Fbarᵀ * p.Fbar) = Pn := by
    rw [post_eq_gainCov (by simp) (by simp) hLS]
    have := p.hFhat
    unfold IsQR at this
    refine Eq.trans ?_ p.hP.symm
    rw [this, transpose_fromRows, fromCols_mul_fromRows]
    unfold gainCov
    simp only [transpose_mul, transpose_transpose, Matrix.mul_assoc]
  have hSd : (H * pred A1 A2 (p.Fᵀ * p.F) (1 : Matrix (Fin r) (Fin r) K) (p.Rqᵀ * p.Rq) * Hᵀ
      + p.Rrᵀ * p.Rr).det ≠ 0 := by rw [hPp, hS]; exact hdetS
  obtain ⟨o, ho⟩ := (kalman_ok_iff (Z := Z) (b := b)).2 ⟨p.invA, hSd⟩
  obtain ⟨-, -, L, h1, h2, h3, h4⟩ := kalman_ok ho
  rw [hPp] at h1 h2
  have hLL : L = p.L := by
    refine right_cancel ?_ (h1.trans hLS.symm)
    rw [hS]; exact hdetS
  refine ⟨o.Pzz, ?_⟩
  rw [ho]
  cases o
  simp only [Except.ok.injEq, Out.mk.injEq, and_true]
  simp only at h2 h4
  exact ⟨by rw [h4, hLL, ← p.hb], by rw [h2, hLL, hPost]⟩

/-- The Cholesky factor of a diagonal matrix is diagonal, so both products agree. -/
theorem chol_diagonal {L P : Matrix (Fin r) (Fin r) K} (h : IsChol L P)
    (hP : ∀ i j, i ≠ j → P i j = 0) : Lᵀ * L = P := by
  have key : ∀ k : ℕ, ∀ j : Fin r, j.val = k → ∀ i : Fin r, j < i → L i j = 0 := by
    intro k
    induction k using Nat.strong_induction_on with
    | _ k ih =>
      intro j hj i hji
      have e : (L * Lᵀ) i j = L i j * L j j := by
        rw [mul_apply, Finset.sum_eq_single j]
        · rfl
        · intro c _ hc
          rcases lt_or_gt_of_ne hc with hlt | hgt
          · rw [ih c.val (by rw [← hj]; exact hlt) c rfl i (lt_trans hlt hji), zero_mul]
          · rw [transpose_apply, h.lower j c hgt, mul_zero]
        · intro hn; exact absurd (Finset.mem_univ _) hn
      rw [h.fac, hP i j (ne_of_gt hji)] at e
      rcases mul_eq_zero.1 e.symm with h0 | h0
      · exact h0
      · exact absurd h0 (h.pos j).ne'
  have hsym : Lᵀ = L := by
    ext i j
    rw [transpose_apply]
    rcases lt_trichotomy i j with hlt | rfl | hgt
    · rw [key _ i rfl j hlt, h.lower i j hlt]
    · rfl
    · rw [h.lower j i hgt, key _ j rfl i hgt]
  rw [← h.fac, hsym]

/-- **C71 for diagonal covariances**: then the square-root routine returns exactly what the plain one
returns with `C = 1`. -/
theorem C71_diagonal_partial (p : SRPass Z P A1 A2 b H Q R bHat Pn)
    (hP : ∀ i j, i ≠ j → P i j = 0) (hQ : ∀ i j, i ≠ j → Q i j = 0)
    (hR : ∀ i j, i ≠ j → R i j = 0) :
    ∃ Pzz, kalman Z P A1 A2 b H (1 : Matrix (Fin r) (Fin r) K) Q R
      = .ok { bHat := bHat, P := Pn, Pzz := Pzz } := by
  have := C71_square_root_result p
  rwa [chol_diagonal p.hF hP, chol_diagonal p.hRq hQ, chol_diagonal p.hRr hR] at this

end Root

/-- The inputs of the counterexample: two superjunctions, correlated prior. -/
def exP : Matrix (Fin 2) (Fin 2) ℚ := !![4, 2; 2, 10]
def exQ : Matrix (Fin 2) (Fin 2) ℚ := !![4, 0; 0, 1]
def exH : Matrix (Fin 1) (Fin 2) ℚ := !![1, 0]
def exR : Matrix (Fin 1) (Fin 1) ℚ := !![16]

/-- The square-root routine completes on them. -/
theorem exPass : Nonempty (SRPass (fun _ => (0 : ℚ)) exP 1 1 (fun _ => 0) exH exQ exR (fun _ => 0)
    !![144 / 25, 48 / 25; 48 / 25, 241 / 25]) := by
  refine ⟨{ Rq := !![2, 0; 0, 1], Rr := !![4], F := !![2, 0; 1, 3], Fbar := !![3, 1; 0, 3], G := !![5],
            L := !![9 / 25; 3 / 25], Fhat := !![12 / 5, 4 / 5; 0, 3], invA := ?_, invG := ?_, hRq := ?_,
            hRr := ?_, hF := ?_, hFbar := ?_, hG := ?_, hL := ?_, hFhat := ?_, hP := ?_, hb := ?_ }⟩
  · simp
  · simp
  · refine ⟨?_, ?_, ?_⟩
    · intro i j; fin_cases i <;> fin_cases j <;> simp
    · intro i; fin_cases i <;> simp
    · ext i j; fin_cases i <;> fin_cases j <;> simp [exQ, mul_apply, Fin.sum_univ_two, vecMul, dotProduct, one_apply] <;> norm_num
  · refine ⟨?_, ?_, ?_⟩
    · intro i j; fin_cases i; fin_cases j; simp
    · intro i; fin_cases i; simp
    · ext i j; fin_cases i; fin_cases j; simp [exR, mul_apply]; norm_num
  · refine ⟨?_, ?_, ?_⟩
    · intro i j; fin_cases i <;> fin_cases j <;> simp
    · intro i; fin_cases i <;> simp
    · ext i j; fin_cases i <;> fin_cases j <;> simp [exP, mul_apply, Fin.sum_univ_two, vecMul, dotProduct, one_apply] <;> norm_num
  · unfold IsQR
    rw [transpose_fromRows, fromCols_mul_fromRows]
    ext i j
    fin_cases i <;> fin_cases j <;> simp [mul_apply, Fin.sum_univ_two, vecMul, dotProduct, one_apply] <;> norm_num
  · unfold IsQR
    rw [transpose_fromRows, fromCols_mul_fromRows]
    ext i j
    fin_cases i; fin_cases j; simp [exH, mul_apply, Fin.sum_univ_two, vecMul, dotProduct, one_apply]; norm_num
  · have hG : (!![(5 : ℚ)] : Matrix (Fin 1) (Fin 1) ℚ)⁻¹ = !![1 / 5] := by
      apply inv_eq_right_inv
      ext i j; fin_cases i; fin_cases j; simp [mul_apply]
    rw [hG]
    ext i j
    fin_cases j
    fin_cases i <;> simp [exH, mul_apply, Fin.sum_univ_two, vecMul, dotProduct, one_apply] <;> norm_num
  · unfold IsQR
    rw [transpose_fromRows, fromCols_mul_fromRows]
    ext i j
    fin_cases i <;> fin_cases j <;> simp [exH, mul_apply, Fin.sum_univ_two, vecMul, dotProduct, one_apply] <;> norm_num
  · ext i j
    fin_cases i <;> fin_cases j <;> simp [mul_apply, Fin.sum_univ_two, vecMul, dotProduct, one_apply] <;> norm_num
  · ext i
    simp [mulVec, dotProduct]

theorem ex_innovation : exH * (!![8, 2; 2, 11] : Matrix (Fin 2) (Fin 2) ℚ) * exHᵀ + exR = !![24] := by
  ext i j
  fin_cases i; fin_cases j
  simp only [Matrix.add_apply, mul_apply, Fin.sum_univ_two, transpose_apply]
  simp [exH, exR]
  norm_num

/-- **C71 fails for correlated covariances**: on these inputs the plain update leaves the
variance `16/3` at the observed superjunction, every run of the square-root routine `144/25`. -/
theorem C71_square_root_differs :
    (∀ o, kalman (fun _ => (0 : ℚ)) exP 1 1 (fun _ => 0) exH (1 : Matrix (Fin 2) (Fin 2) ℚ) exQ exR
      = .ok o → o.P 0 0 = 16 / 3) ∧
    ∃ bh Pn, Nonempty (SRPass (fun _ => (0 : ℚ)) exP 1 1 (fun _ => 0) exH exQ exR bh Pn) ∧
      Pn 0 0 = 144 / 25 := by
  refine ⟨fun o h => ?_, _, _, exPass, by simp⟩
  obtain ⟨-, -, L, h1, h2, -, -⟩ := kalman_ok h
  have hp : pred 1 1 exP (1 : Matrix (Fin 2) (Fin 2) ℚ) exQ = !![8, 2; 2, 11] := by
    simp only [pred, inv_one, transpose_one, Matrix.one_mul, Matrix.mul_one]
    ext i j
    fin_cases i <;> fin_cases j <;> simp [exP, exQ] <;> norm_num
  rw [hp, ex_innovation] at h1
  rw [hp] at h2
  have e := congrFun (congrFun h1 0) 0
  simp [mul_apply, Fin.sum_univ_two, exH, exR] at e
  rw [h2]
  simp [mul_apply, Fin.sum_univ_two, exH]
  linarith

/-- Non-trivial instance for C50: two superjunctions, one observed. -/
example : ∃ o, kalman (fun _ => (1 : ℚ)) exP 1 1 (fun _ => 0) exH (1 : Matrix (Fin 2) (Fin 2) ℚ) exQ exR
    = .ok o := by
  refine kalman_ok_iff.2 ⟨by simp, ?_⟩
  have hp : pred 1 1 exP (1 : Matrix (Fin 2) (Fin 2) ℚ) exQ = !![8, 2; 2, 11] := by
    simp only [pred, inv_one, transpose_one, Matrix.one_mul, Matrix.mul_one]
    ext i j
    fin_cases i <;> fin_cases j <;> simp [exP, exQ] <;> norm_num
  rw [hp, ex_innovation]
  simp

end Pipedream.Kalman
