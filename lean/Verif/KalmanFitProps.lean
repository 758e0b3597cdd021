import Verif.KalmanProps

/-!
# C163: a measurement draws the estimate towards itself

The heads left by `kalman_filter` (nutils.py 176–197, simulation.py 489–501) compared with the heads of the step
before it, by their distance from the measurement.
-/

namespace Pipedream.Kalman

open Matrix

variable {K : Type*} [Field K] [LinearOrder K] [IsStrictOrderedRing K]
variable {n m a : Type*} [Fintype n] [DecidableEq n] [Fintype m] [DecidableEq m] [Fintype a]
  [DecidableEq a]
variable {Z : m → K} {P A1 A2 : Matrix n n K} {b : n → K} {H : Matrix m n K} {C : Matrix n a K} {Q : Matrix a a K}
  {R : Matrix m m K} {o : Out K n m} {x x' : n → K} {Pp : Matrix n n K}

/-- **C163 (residuals).** There are weights `y`, one for each measurement, such that the innovation is `(H Pp Hᵀ + R) y`,
what is left of it after the update is `R y`, and the state has moved by `Pp Hᵀ y`. -/
theorem C163_residual (h : kalman Z P A1 A2 b H C Q R = .ok o) (hPp : IsPredicted A1 A2 P C Q Pp)
    (hx : A1 *ᵥ x = b) (hx' : A1 *ᵥ x' = o.bHat) :
    ∃ y : m → K, Z - H *ᵥ x = (H * Pp * Hᵀ + R) *ᵥ y ∧ Z - H *ᵥ x' = R *ᵥ y ∧ x' - x = (Pp * Hᵀ) *ᵥ y := by
  obtain ⟨hd, hs, L, hL, -, -, -⟩ := kalman_ok h
  have e : Pp = pred A1 A2 P C Q := by
    have hΦ : A1 * (A1⁻¹ * A2) = A2 := by
      rw [← Matrix.mul_assoc, mul_nonsing_inv _ (Ne.isUnit hd), Matrix.one_mul]
    rw [hPp _ hΦ, ← pred_isPredicted hd C Q _ hΦ]
  rw [← e] at hs hL
  have st := (C50_state h hPp hL hx hx').1
  set S := H * Pp * Hᵀ + R with hS
  have hy : S *ᵥ (S⁻¹ *ᵥ (Z - H *ᵥ x)) = Z - H *ᵥ x := by
    rw [mulVec_mulVec, mul_nonsing_inv _ (Ne.isUnit hs), one_mulVec]
  have mv : x' - x = (Pp * Hᵀ) *ᵥ (S⁻¹ *ᵥ (Z - H *ᵥ x)) := by
    rw [st, add_sub_cancel_left, ← hL, ← mulVec_mulVec, hy]
  refine ⟨S⁻¹ *ᵥ (Z - H *ᵥ x), hy.symm, ?_, mv⟩
  have : Z - H *ᵥ x' = (Z - H *ᵥ x) - H *ᵥ (x' - x) := by rw [mulVec_sub]; abel
  rw [this, mv, mulVec_mulVec]
  nth_rewrite 1 [← hy]
  rw [← sub_mulVec, hS, ← Matrix.mul_assoc, add_sub_cancel_left]

/-- **C163 (one measurement).** The residual keeps its sign and does not grow: the estimate moves towards the measurement
and not beyond it. -/
theorem C163_single [Unique m] (hP : PSD P) (hQ : PSD Q) (hR : PSD R)
    (h : kalman Z P A1 A2 b H C Q R = .ok o) (hx : A1 *ᵥ x = b) (hx' : A1 *ᵥ x' = o.bHat) :
    |(Z - H *ᵥ x') default| ≤ |(Z - H *ᵥ x) default| ∧ 0 ≤ (Z - H *ᵥ x') default * (Z - H *ᵥ x) default := by
  obtain ⟨hd, -⟩ := kalman_ok h
  have hPp : IsPredicted A1 A2 P C Q (pred A1 A2 P C Q) := pred_isPredicted hd C Q
  obtain ⟨y, e1, e2, -⟩ := C163_residual h hPp hx hx'
  have pos : ∀ {M : Matrix m m K}, PSD M → 0 ≤ M default default := by
    intro M hM
    have := hM.2 (fun _ => 1)
    simpa [dotProduct, mulVec] using this
  have hs := pos ((pred_psd (A1 := A1) (A2 := A2) (C := C) hP hQ).congr H)
  have hr := pos hR
  have f1 : (Z - H *ᵥ x) default = ((H * pred A1 A2 P C Q * Hᵀ) default default + R default default) * y default := by
    rw [e1]; simp [mulVec, dotProduct]
  have f2 : (Z - H *ᵥ x') default = R default default * y default := by
    rw [e2]; simp [mulVec, dotProduct]
  rw [f1, f2, abs_mul, abs_mul, abs_of_nonneg hr, abs_of_nonneg (add_nonneg hs hr)]
  refine ⟨mul_le_mul_of_nonneg_right (by linarith) (abs_nonneg _), ?_⟩
  have : R default default * y default * (((H * pred A1 A2 P C Q * Hᵀ) default default + R default default) * y default)
      = R default default * ((H * pred A1 A2 P C Q * Hᵀ) default default + R default default) * (y default) ^ 2 := by ring
  rw [this]
  exact mul_nonneg (mul_nonneg hr (add_nonneg hs hr)) (sq_nonneg _)

omit [LinearOrder K] [IsStrictOrderedRing K] [DecidableEq n] [DecidableEq m] in
theorem dot_symm {M : Matrix n n K} (hM : Mᵀ = M) (u v : n → K) : u ⬝ᵥ (M *ᵥ v) = v ⬝ᵥ (M *ᵥ u) := by
  rw [dotProduct_mulVec, ← mulVec_transpose, hM, dotProduct_comm]

/-- **C163 (several measurements).** Measured in the innovation covariance the filter reports, the residuals together do
not grow. -/
theorem C163_several (hP : PSD P) (hQ : PSD Q) (hR : PSD R)
    (h : kalman Z P A1 A2 b H C Q R = .ok o) (hx : A1 *ᵥ x = b) (hx' : A1 *ᵥ x' = o.bHat)
    {T : Matrix m m K} (hT : T * o.Pzz = 1) :
    (Z - H *ᵥ x') ⬝ᵥ (T *ᵥ (Z - H *ᵥ x')) ≤ (Z - H *ᵥ x) ⬝ᵥ (T *ᵥ (Z - H *ᵥ x)) := by
  obtain ⟨hd, hs, -, -, -, hz, -⟩ := kalman_ok h
  have hPp : IsPredicted A1 A2 P C Q (pred A1 A2 P C Q) := pred_isPredicted hd C Q
  obtain ⟨y, e1, e2, -⟩ := C163_residual h hPp hx hx'
  have hM : PSD (H * pred A1 A2 P C Q * Hᵀ) := (pred_psd hP hQ).congr H
  rw [hz] at hT
  generalize H * pred A1 A2 P C Q * Hᵀ = M at *
  have hT' : (M + R) * T = 1 := mul_eq_one_comm.mp hT
  rw [e1, e2]
  have t1 : T *ᵥ ((M + R) *ᵥ y) = y := by rw [mulVec_mulVec, hT, one_mulVec]
  rw [t1]
  set q := T *ᵥ (R *ᵥ y) with hq
  have sq : M *ᵥ q + R *ᵥ q = R *ᵥ y := by
    rw [← add_mulVec, hq, mulVec_mulVec, hT', one_mulVec]
  have a1 : (R *ᵥ y) ⬝ᵥ q = q ⬝ᵥ (M *ᵥ q) + q ⬝ᵥ (R *ᵥ q) := by
    rw [dotProduct_comm, ← sq, dotProduct_add]
  have a2 : q ⬝ᵥ (R *ᵥ y) = q ⬝ᵥ (M *ᵥ q) + q ⬝ᵥ (R *ᵥ q) := by rw [← sq, dotProduct_add]
  have a3 := hR.2 (y - q)
  rw [mulVec_sub, sub_dotProduct, dotProduct_sub, dotProduct_sub, dot_symm hR.1 y q, a2] at a3
  have a4 := hM.2 q
  have a5 := hM.2 y
  have a6 : ((M + R) *ᵥ y) ⬝ᵥ y = y ⬝ᵥ (M *ᵥ y) + y ⬝ᵥ (R *ᵥ y) := by
    rw [dotProduct_comm, add_mulVec, dotProduct_add]
  rw [a1, a6]
  linarith

/-- What a state `w` costs: its distance from the prediction weighed by the inverse prediction covariance plus its distance
from the measurement weighed by the inverse measurement covariance. -/
def misfit (Pi : Matrix n n K) (Ri : Matrix m m K) (H : Matrix m n K) (Z : m → K) (x w : n → K) : K :=
  (w - x) ⬝ᵥ (Pi *ᵥ (w - x)) + (Z - H *ᵥ w) ⬝ᵥ (Ri *ᵥ (Z - H *ᵥ w))

/-- **C163 (best compromise).** No state fits prediction and measurement better than the one the update produces. -/
theorem C163_best (h : kalman Z P A1 A2 b H C Q R = .ok o) (hPp : IsPredicted A1 A2 P C Q Pp)
    (hx : A1 *ᵥ x = b) (hx' : A1 *ᵥ x' = o.bHat) {Pi : Matrix n n K} {Ri : Matrix m m K}
    (hPi : PSD Pi) (hRi : PSD Ri) (iP : Pi * Pp = 1) (iR : Ri * R = 1) (w : n → K) :
    misfit Pi Ri H Z x x' ≤ misfit Pi Ri H Z x w := by
  obtain ⟨y, -, e2, e3⟩ := C163_residual h hPp hx hx'
  have f3 : Pi *ᵥ (x' - x) = Hᵀ *ᵥ y := by
    rw [e3, mulVec_mulVec, ← Matrix.mul_assoc, iP, Matrix.one_mul]
  have f2 : Ri *ᵥ (Z - H *ᵥ x') = y := by rw [e2, mulVec_mulVec, iR, one_mulVec]
  obtain ⟨d, rfl⟩ : ∃ d, w = x' + d := ⟨w - x', by abel⟩
  have g1 : x' + d - x = (x' - x) + d := by abel
  have g2 : Z - H *ᵥ (x' + d) = (Z - H *ᵥ x') - H *ᵥ d := by rw [mulVec_add]; abel
  have c : d ⬝ᵥ (Hᵀ *ᵥ y) = (H *ᵥ d) ⬝ᵥ y := by rw [dotProduct_mulVec, vecMul_transpose]
  unfold misfit
  rw [g1, g2]
  generalize x' - x = u at *
  generalize Z - H *ᵥ x' = r at *
  generalize H *ᵥ d = e at *
  rw [mulVec_add, mulVec_sub, add_dotProduct, dotProduct_add, dotProduct_add, sub_dotProduct, dotProduct_sub,
    dotProduct_sub, dot_symm hPi.1 u d, dot_symm hRi.1 r e, f3, f2, c]
  have p1 := hPi.2 d
  have p2 := hRi.2 e
  linarith

/-- **C163 (no correlation, no change).** A superjunction whose predicted error is uncorrelated with the measured quantities
keeps its head. -/
theorem C163_uncorrelated (h : kalman Z P A1 A2 b H C Q R = .ok o) (hPp : IsPredicted A1 A2 P C Q Pp)
    (hx : A1 *ᵥ x = b) (hx' : A1 *ᵥ x' = o.bHat) {j : n} (hj : ∀ k, (Pp * Hᵀ) j k = 0) : x' j = x j := by
  obtain ⟨y, -, -, e3⟩ := C163_residual h hPp hx hx'
  have := congrFun e3 j
  have z : ((Pp * Hᵀ) *ᵥ y) j = 0 := by
    rw [mulVec, dotProduct]
    exact Finset.sum_eq_zero fun k _ => by rw [hj k, zero_mul]
  rw [z, Pi.sub_apply] at this
  linarith [this]

theorem clip_towards {lo hi z v v' : K} (hz : lo ≤ z) (hz' : z ≤ hi) (h : |z - v'| ≤ |z - v|) :
    |z - min (max v' lo) hi| ≤ |z - v| := by
  refine le_trans ?_ h
  rcases le_total v' lo with h1 | h1
  · rw [max_eq_right h1, min_eq_left (hz.trans hz'), abs_of_nonneg (by linarith), abs_of_nonneg (by linarith)]
    linarith
  · rw [max_eq_left h1]
    rcases le_total v' hi with h2 | h2
    · rw [min_eq_left h2]
    · rw [min_eq_right h2, abs_of_nonpos (by linarith), abs_of_nonpos (by linarith)]
      linarith

/-- **C163 (in a simulation).** Measuring the head of one superjunction: after `kalman_filter` that head is no farther
from the measurement, provided the measurement is a head the superjunction can have. -/
theorem C163_filter [Unique m] {dt : K} {s s' : KSim K n} (hP : PSD s.P) (hQ : PSD Q) (hR : PSD R)
    (h : kalmanFilter Z H C Q R dt s = .ok s') (hx : s.lhs *ᵥ x = s.b) {j : n}
    (hH : ∀ w : n → K, (H *ᵥ w) default = w j)
    (lo : s.zInv j ≤ Z default) (hi : Z default ≤ s.zInv j + s.maxDepth j) :
    |Z default - s'.heads j| ≤ |Z default - x j| := by
  obtain ⟨o, ho, rfl⟩ := filter_ok h
  have hd := (kalman_ok ho).1
  have hx' : s.lhs *ᵥ (s.lhs⁻¹ *ᵥ o.bHat) = o.bHat := by
    rw [mulVec_mulVec, mul_nonsing_inv _ (Ne.isUnit hd), one_mulVec]
  have := (C163_single hP hQ hR ho hx hx').1
  rw [Pi.sub_apply, Pi.sub_apply, hH, hH] at this
  exact clip_towards lo hi this

/-- One superjunction, area one, no correlation with anything else: prediction 1, measurement 3, equal variances give 2. -/
example : ∃ o, kalman (K := ℚ) (n := Fin 1) (m := Fin 1) (a := Fin 1) (fun _ => 3) 0 1 1 (fun _ => 1) 1 1 1 1 = .ok o ∧
    o.bHat 0 = 2 := by
  have hA : ((1 : Matrix (Fin 1) (Fin 1) ℚ)).det ≠ 0 := by simp
  obtain ⟨o, ho⟩ := C50_completes (K := ℚ) (n := Fin 1) (m := Fin 1) (a := Fin 1) (Z := fun _ => 3) (P := 0) (A1 := 1)
    (A2 := 1) (b := fun _ => 1) (H := 1) (C := 1) (Q := 1) (R := 1) psd_zero psd_one
    (fun v hv => by
      rw [one_mulVec]
      have h0 : v 0 ≠ 0 := fun e => hv (funext fun i => by rw [Subsingleton.elim i 0, e]; rfl)
      have : v ⬝ᵥ v = v 0 * v 0 := by simp [dotProduct]
      rw [this]
      exact mul_self_pos.mpr h0) hA
  refine ⟨o, ho, ?_⟩
  obtain ⟨y, e1, e2, e3⟩ := C163_residual ho (Pp := 1) (fun Φ _ => by simp) (x := fun _ => 1) (x' := o.bHat) (by simp) (by simp)
  have f1 := congrFun e1 0
  have f3 := congrFun e3 0
  simp [mulVec, dotProduct] at f1 f3
  linarith

end Pipedream.Kalman
