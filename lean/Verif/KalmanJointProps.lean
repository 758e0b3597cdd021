import Verif.KalmanProps
import Mathlib.LinearAlgebra.Matrix.SchurComplement

/-!
# C168: measurements assimilated one after another or together

Two sets of independent measurements, given to `kalman_filter` (nutils.py 160–199, simulation.py 454–501) in one
call or in two calls within the same step.
-/

namespace Pipedream.Kalman

open Matrix

variable {K : Type*} [Field K]
variable {n m m' a a' : Type*} [Fintype n] [DecidableEq n] [Fintype m] [DecidableEq m] [Fintype m'] [DecidableEq m']
  [Fintype a] [DecidableEq a] [Fintype a'] [DecidableEq a']

/-! ### Specification -/

/-- Both sets of measurements in one list. -/
def bothZ (Z : m → K) (Z' : m' → K) : m ⊕ m' → K := Sum.elim Z Z'

/-- The observation matrix of both sets. -/
def bothH (H : Matrix m n K) (H' : Matrix m' n K) : Matrix (m ⊕ m') n K := fromRows H H'

/-- The covariance of both sets: their errors are independent of each other. -/
def bothR (R : Matrix m m K) (R' : Matrix m' m' K) : Matrix (m ⊕ m') (m ⊕ m') K := fromBlocks R 0 0 R'

/-! ### Gain and innovation covariance of both sets -/

variable {Pp P1 : Matrix n n K} {H : Matrix m n K} {H' : Matrix m' n K} {R : Matrix m m K} {R' : Matrix m' m' K}
  {L : Matrix n m K} {L' : Matrix n m' K}

omit [DecidableEq n] [Fintype m] [DecidableEq m] [Fintype m'] [DecidableEq m'] in
theorem both_cov : bothH H H' * Pp * (bothH H H')ᵀ + bothR R R' =
    fromBlocks (H * Pp * Hᵀ + R) (H * Pp * H'ᵀ) (H' * Pp * Hᵀ) (H' * Pp * H'ᵀ + R') := by
  rw [bothH, bothR, transpose_fromRows, fromRows_mul, fromRows_mul_fromCols, fromBlocks_add, add_zero, add_zero]

omit [DecidableEq m] [DecidableEq m'] in
/-- The gain of both sets together, from the two gains of the sequence. -/
theorem both_gain (hL : L * (H * Pp * Hᵀ + R) = Pp * Hᵀ) (hP1 : P1 = (1 - L * H) * Pp)
    (hL' : L' * (H' * P1 * H'ᵀ + R') = P1 * H'ᵀ) :
    fromCols (L - L' * H' * L) L' * (bothH H H' * Pp * (bothH H H')ᵀ + bothR R R') = Pp * (bothH H H')ᵀ := by
  rw [both_cov, fromCols_mul_fromBlocks, bothH, transpose_fromRows, mul_fromCols]
  congr 1
  · rw [Matrix.sub_mul, hL, Matrix.mul_assoc (L' * H'), hL]
    simp only [Matrix.mul_assoc]
    abel
  · subst hP1
    have e : L' * (H' * Pp * H'ᵀ + R') = L' * (H' * ((1 - L * H) * Pp) * H'ᵀ + R') + L' * H' * L * (H * Pp * H'ᵀ) := by
      simp only [Matrix.sub_mul, Matrix.mul_sub, Matrix.mul_add, Matrix.one_mul, Matrix.mul_assoc]
      abel
    rw [e, hL']
    simp only [Matrix.sub_mul, Matrix.one_mul, Matrix.mul_assoc]
    abel

/-- The innovation covariance of both sets is regular when those of the sequence are. -/
theorem both_det (hs : (H * Pp * Hᵀ + R).det ≠ 0) (hL : L * (H * Pp * Hᵀ + R) = Pp * Hᵀ) (hP1 : P1 = (1 - L * H) * Pp)
    (hs' : (H' * P1 * H'ᵀ + R').det ≠ 0) : (bothH H H' * Pp * (bothH H H')ᵀ + bothR R R').det ≠ 0 := by
  rw [both_cov]
  let _ : Invertible (H * Pp * Hᵀ + R) := invertibleOfIsUnitDet _ (Ne.isUnit hs)
  rw [det_fromBlocks₁₁]
  refine mul_ne_zero hs ?_
  have e : H' * Pp * H'ᵀ + R' - H' * Pp * Hᵀ * ⅟(H * Pp * Hᵀ + R) * (H * Pp * H'ᵀ) = H' * P1 * H'ᵀ + R' := by
    have : Pp * Hᵀ * ⅟(H * Pp * Hᵀ + R) = L := by
      rw [← hL, Matrix.mul_assoc, mul_invOf_self, Matrix.mul_one]
    rw [Matrix.mul_assoc H' Pp Hᵀ, Matrix.mul_assoc H' (Pp * Hᵀ), this, hP1]
    simp only [Matrix.sub_mul, Matrix.mul_sub, Matrix.one_mul, Matrix.mul_assoc]
    abel
  rw [e]
  exact hs'

/-! ### C168 -/

variable [LinearOrder K] [IsStrictOrderedRing K]
variable {Z : m → K} {Z' : m' → K} {P P' A1 A2 A2' : Matrix n n K} {b : n → K} {C : Matrix n a K} {Q : Matrix a a K}
  {C' : Matrix n a' K} {Q' : Matrix a' a' K}

/-- **C168 (update).** If the second update starts from the covariance the first one left (its prediction adds nothing),
then the two updates together are one update with both sets of measurements: the same right-hand side, the same
covariance. -/
theorem C168_update {o : Out K n m} {o' : Out K n m'} (h : kalman Z P A1 A2 b H C Q R = .ok o)
    (h' : kalman Z' P' A1 A2' o.bHat H' C' Q' R' = .ok o') (hp : IsPredicted A1 A2' P' C' Q' o.P) :
    ∃ j, kalman (bothZ Z Z') P A1 A2 b (bothH H H') C Q (bothR R R') = .ok j ∧ j.bHat = o'.bHat ∧ j.P = o'.P := by
  obtain ⟨hd, hs, L, hL, hoP, -, hb⟩ := kalman_ok h
  obtain ⟨-, hs', L', hL', hoP', -, hb'⟩ := kalman_ok h'
  have e : pred A1 A2' P' C' Q' = o.P := by
    have hΦ : A1 * (A1⁻¹ * A2') = A2' := by
      rw [← Matrix.mul_assoc, mul_nonsing_inv _ (Ne.isUnit hd), Matrix.one_mul]
    rw [hp _ hΦ, ← pred_isPredicted hd C' Q' _ hΦ]
  rw [e] at hs' hL' hoP'
  have dj := both_det hs hL hoP hs'
  obtain ⟨j, hj⟩ := (kalman_ok_iff (Z := bothZ Z Z') (b := b)).2 ⟨hd, dj⟩
  refine ⟨j, hj, ?_⟩
  obtain ⟨-, -, J, hJ, hjP, -, hjb⟩ := kalman_ok hj
  have g := right_cancel dj (hJ.trans (both_gain hL hoP hL').symm)
  have x1 : A1⁻¹ *ᵥ o.bHat = A1⁻¹ *ᵥ b + L *ᵥ (Z - H *ᵥ (A1⁻¹ *ᵥ b)) := by
    rw [hb, mulVec_mulVec, nonsing_inv_mul _ (Ne.isUnit hd), one_mulVec]
  constructor
  · rw [hjb, hb', x1, g]
    congr 1
    have : bothZ Z Z' - bothH H H' *ᵥ (A1⁻¹ *ᵥ b) =
        Sum.elim (Z - H *ᵥ (A1⁻¹ *ᵥ b)) (Z' - H' *ᵥ (A1⁻¹ *ᵥ b)) := by
      rw [bothH, fromRows_mulVec]
      funext i
      cases i <;> rfl
    rw [this, fromCols_mulVec]
    simp only [Sum.elim_comp_inl, Sum.elim_comp_inr, sub_mulVec, mulVec_add, mulVec_sub, ← mulVec_mulVec]
    abel
  · rw [hjP, hoP', g, hoP, bothH, fromCols_mul_fromRows]
    generalize pred A1 A2 P C Q = Pp
    simp only [Matrix.sub_mul, Matrix.add_mul, Matrix.mul_sub, Matrix.one_mul, Matrix.mul_assoc]
    abel

/-- **C168 (two calls in one step; partial).** Two calls of `kalman_filter` after the same step leave what one call with
both sets of measurements leaves — heads, covariance, right-hand side, time — if predicting again does not change the
covariance of the first call. Missing: that it does not; the second call always predicts again. -/
theorem C168_filter_partial {s s1 s2 : KSim K n} {dt : K} (h : kalmanFilter Z H C Q R dt s = .ok s1)
    (h' : kalmanFilter Z' H' C Q R' dt s1 = .ok s2) (hp : IsPredicted s.lhs (a2 s dt) s1.P C Q s1.P) :
    kalmanFilter (bothZ Z Z') (bothH H H') C Q (bothR R R') dt s = .ok s2 := by
  obtain ⟨o, ho, rfl⟩ := filter_ok h
  obtain ⟨o', ho', rfl⟩ := filter_ok h'
  obtain ⟨j, hj, e1, e2⟩ := C168_update ho ho' hp
  unfold kalmanFilter
  rw [hj]
  simp only [solveStep]
  rw [npInv_of (kalman_ok ho).1]
  simp only [e1, e2, sub_add_cancel]

/-- **C168 (what the second call does).** The covariance left by two calls is that of the second set of measurements
applied to a covariance that has been predicted twice. -/
theorem C168_predicts_twice {s s1 s2 : KSim K n} {dt : K} (h : kalmanFilter Z H C Q R dt s = .ok s1)
    (h' : kalmanFilter Z' H' C Q R' dt s1 = .ok s2) :
    ∃ L L', L * (H * pred s.lhs (a2 s dt) s.P C Q * Hᵀ + R) = pred s.lhs (a2 s dt) s.P C Q * Hᵀ ∧
      s1.P = (1 - L * H) * pred s.lhs (a2 s dt) s.P C Q ∧
      L' * (H' * pred s.lhs (a2 s dt) s1.P C Q * H'ᵀ + R') = pred s.lhs (a2 s dt) s1.P C Q * H'ᵀ ∧
      s2.P = (1 - L' * H') * pred s.lhs (a2 s dt) s1.P C Q := by
  obtain ⟨o, ho, rfl⟩ := filter_ok h
  obtain ⟨o', ho', rfl⟩ := filter_ok h'
  obtain ⟨-, -, L, hL, hoP, -, -⟩ := kalman_ok ho
  obtain ⟨-, -, L', hL', hoP', -, -⟩ := kalman_ok ho'
  exact ⟨L, L', hL, hoP, hL', hoP'⟩

/-! ### Where it fails -/

/-- One superjunction: transition 1/2, covariance 4, unit process noise. -/
def jointSim : KSim ℚ (Fin 1) where
  lhs := 1
  b := fun _ => 1
  area := fun _ => 1 / 2
  bc := fun _ => false
  zInv := fun _ => 0
  maxDepth := fun _ => 10
  t := 0
  iter := 0
  heads := fun _ => 1
  P := (4 : ℚ) • 1

theorem joint_a2 : a2 jointSim 1 = (1 / 2 : ℚ) • 1 := by
  ext i j
  obtain rfl : i = j := Subsingleton.elim _ _
  simp [a2, jointSim]

theorem joint_pred (c : ℚ) :
    pred (1 : Matrix (Fin 1) (Fin 1) ℚ) ((1 / 2 : ℚ) • 1) (c • 1) (1 : Matrix (Fin 1) (Fin 1) ℚ) 1 =
      (c / 4 + 1) • 1 := by
  simp only [pred, inv_one, Matrix.mul_one, transpose_one, transpose_smul, Matrix.mul_smul, smul_smul, add_smul,
    one_smul]
  congr 2
  ring

/-- The update of variance `p` by a gauge of variance 2. -/
theorem joint_update {p : ℚ} (hp : 0 ≤ p) {L X : Matrix (Fin 1) (Fin 1) ℚ}
    (hL : L * (1 * (p • 1) * 1ᵀ + (2 : ℚ) • 1) = (p • 1) * 1ᵀ) (hX : X = (1 - L * 1) * (p • 1)) :
    X = (2 * p / (p + 2)) • 1 := by
  simp only [transpose_one, Matrix.mul_one, Matrix.mul_smul, ← add_smul] at hL
  simp only [Matrix.mul_one, Matrix.mul_smul] at hX
  have g := congrFun (congrFun hL 0) 0
  ext i j
  obtain rfl : i = 0 := Subsingleton.elim _ _
  obtain rfl : j = 0 := Subsingleton.elim _ _
  rw [hX]
  simp only [Matrix.smul_apply, Matrix.sub_apply, one_apply_eq, smul_eq_mul, mul_one] at g ⊢
  have : L 0 0 = p / (p + 2) := by
    rw [eq_div_iff (by linarith)]; linarith
  rw [this]
  have : p + 2 ≠ 0 := by linarith
  field_simp
  ring

theorem two_pos_def (v : Fin 1 → ℚ) (hv : v ≠ 0) : 0 < v ⬝ᵥ (((2 : ℚ) • (1 : Matrix (Fin 1) (Fin 1) ℚ)) *ᵥ v) := by
  have h0 : v 0 ≠ 0 := fun e => hv (funext fun i => by rw [Subsingleton.elim i 0, e]; rfl)
  have : v ⬝ᵥ (((2 : ℚ) • (1 : Matrix (Fin 1) (Fin 1) ℚ)) *ᵥ v) = 2 * (v 0 * v 0) := by
    rw [smul_mulVec, one_mulVec, dotProduct_smul]
    simp [dotProduct]
  rw [this]
  exact mul_pos (by norm_num) (mul_self_pos.mpr h0)

/-- **C168 is false in a simulation:** two gauges of variance 2 at the same superjunction, read after the same step. One
call with both leaves the variance 2/3; two calls leave 10/13. -/
theorem C168_two_calls_differ (z z' : ℚ) : ∃ s1 s2 j : KSim ℚ (Fin 1),
    kalmanFilter (m := Fin 1) (fun _ => z) 1 (1 : Matrix (Fin 1) (Fin 1) ℚ) 1 ((2 : ℚ) • 1) 1 jointSim = .ok s1 ∧
    kalmanFilter (m := Fin 1) (fun _ => z') 1 (1 : Matrix (Fin 1) (Fin 1) ℚ) 1 ((2 : ℚ) • 1) 1 s1 = .ok s2 ∧
    kalmanFilter (bothZ (fun _ : Fin 1 => z) (fun _ : Fin 1 => z')) (bothH 1 1) (1 : Matrix (Fin 1) (Fin 1) ℚ) 1
      (bothR ((2 : ℚ) • 1) ((2 : ℚ) • 1)) 1 jointSim = .ok j ∧
    j.P = (2 / 3 : ℚ) • 1 ∧ s2.P = (10 / 13 : ℚ) • 1 := by
  have two : PSD ((2 : ℚ) • (1 : Matrix (Fin 1) (Fin 1) ℚ)) := psd_one.smul (by norm_num)
  have ok : ∀ (z : ℚ) (s : KSim ℚ (Fin 1)), s.lhs = 1 → PSD s.P →
      ∃ s', kalmanFilter (m := Fin 1) (fun _ => z) 1 (1 : Matrix (Fin 1) (Fin 1) ℚ) 1 ((2 : ℚ) • 1) 1 s = .ok s' := by
    intro z s hl hP
    obtain ⟨o, ho⟩ := C50_completes (Z := fun _ : Fin 1 => z) (P := s.P) (A1 := s.lhs) (A2 := a2 s 1) (b := s.b)
      (H := 1) (C := (1 : Matrix (Fin 1) (Fin 1) ℚ)) hP psd_one two_pos_def (by rw [hl]; simp)
    unfold kalmanFilter
    rw [ho]
    simp only [solveStep]
    rw [npInv_of (by rw [hl]; simp)]
    exact ⟨_, rfl⟩
  have hP0 : PSD jointSim.P := psd_one.smul (by norm_num)
  obtain ⟨s1, h1⟩ := ok z jointSim rfl hP0
  obtain ⟨o, ho, e1⟩ := filter_ok h1
  have l1 : s1.lhs = 1 := by rw [e1]; rfl
  have s1P : s1.P = o.P := by rw [e1]
  have hP1 : PSD o.P := C50_covariance hP0 psd_one two ho
  obtain ⟨s2, h2⟩ := ok z' s1 l1 (s1P ▸ hP1)
  obtain ⟨L, L', hL, hP, hL', hP'⟩ := C168_predicts_twice h1 h2
  rw [joint_a2, show jointSim.lhs = 1 from rfl] at hL hP hL' hP'
  rw [show jointSim.P = (4 : ℚ) • 1 from rfl, joint_pred] at hL hP
  have p1 := joint_update (by norm_num) hL hP
  norm_num only at p1
  rw [p1, joint_pred] at hL' hP'
  have p2 := joint_update (by norm_num) hL' hP'
  norm_num only at p2
  obtain ⟨o2, ho2⟩ : ∃ o2, kalman (m := Fin 1) (fun _ => z') o.P (1 : Matrix (Fin 1) (Fin 1) ℚ) 1 o.bHat 1
      (1 : Matrix (Fin 1) (Fin 1) ℚ) 0 ((2 : ℚ) • 1) = .ok o2 :=
    C50_completes hP1 psd_zero two_pos_def (by simp)
  obtain ⟨j, hj, -, ejP⟩ := C168_update ho ho2 (fun Φ hΦ => by
    rw [show jointSim.lhs = 1 from rfl, Matrix.one_mul] at hΦ
    rw [hΦ]; simp)
  obtain ⟨-, -, L2, g2, q2, -, -⟩ := kalman_ok ho2
  rw [show pred (1 : Matrix (Fin 1) (Fin 1) ℚ) 1 o.P (1 : Matrix (Fin 1) (Fin 1) ℚ) 0 = o.P by simp [pred],
    ← s1P, p1] at g2 q2
  have j1 := joint_update (by norm_num) g2 q2
  norm_num only at j1
  refine ⟨s1, s2, { jointSim with
    P := j.P, b := j.bHat
    heads := fun i => min (max ((jointSim.lhs⁻¹ *ᵥ j.bHat) i) (jointSim.zInv i)) (jointSim.zInv i + jointSim.maxDepth i) },
    h1, h2, ?_, ejP.trans j1, p2⟩
  unfold kalmanFilter
  rw [hj]
  simp only [solveStep]
  rw [npInv_of (show (jointSim.lhs).det ≠ 0 by rw [show jointSim.lhs = 1 from rfl]; simp)]
  simp only [sub_add_cancel]

/-- A superjunction whose level does not change by itself (transition 1, no process noise): two gauges may be read one
after the other. -/
example (z z' : ℚ) : ∃ s1 s2 : KSim ℚ (Fin 1),
    kalmanFilter (m := Fin 1) (fun _ => z) 1 (1 : Matrix (Fin 1) (Fin 1) ℚ) 0 ((2 : ℚ) • 1) 1
      { jointSim with area := fun _ => 1 } = .ok s1 ∧
    kalmanFilter (m := Fin 1) (fun _ => z') 1 (1 : Matrix (Fin 1) (Fin 1) ℚ) 0 ((2 : ℚ) • 1) 1 s1 = .ok s2 ∧
    kalmanFilter (bothZ (fun _ : Fin 1 => z) (fun _ : Fin 1 => z')) (bothH 1 1) (1 : Matrix (Fin 1) (Fin 1) ℚ) 0
      (bothR ((2 : ℚ) • 1) ((2 : ℚ) • 1)) 1 { jointSim with area := fun _ => 1 } = .ok s2 := by
  have ok : ∀ (z : ℚ) (s : KSim ℚ (Fin 1)), s.lhs = 1 → PSD s.P →
      ∃ s', kalmanFilter (m := Fin 1) (fun _ => z) 1 (1 : Matrix (Fin 1) (Fin 1) ℚ) 0 ((2 : ℚ) • 1) 1 s = .ok s' := by
    intro z s hl hP
    obtain ⟨o, ho⟩ := C50_completes (Z := fun _ : Fin 1 => z) (P := s.P) (A1 := s.lhs) (A2 := a2 s 1) (b := s.b)
      (H := 1) (C := (1 : Matrix (Fin 1) (Fin 1) ℚ)) hP psd_zero two_pos_def (by rw [hl]; simp)
    unfold kalmanFilter
    rw [ho]
    simp only [solveStep]
    rw [npInv_of (by rw [hl]; simp)]
    exact ⟨_, rfl⟩
  have hP0 : PSD ({ jointSim with area := fun _ => 1 } : KSim ℚ (Fin 1)).P := psd_one.smul (by norm_num)
  obtain ⟨s1, h1⟩ := ok z { jointSim with area := fun _ => 1 } rfl hP0
  obtain ⟨o, ho, e1⟩ := filter_ok h1
  have hP1 : PSD s1.P := by
    rw [e1]; exact C50_covariance hP0 psd_zero (psd_one.smul (by norm_num)) ho
  obtain ⟨s2, h2⟩ := ok z' s1 (by rw [e1]; rfl) hP1
  refine ⟨s1, s2, h1, h2, C168_filter_partial h1 h2 fun Φ hΦ => ?_⟩
  have : Φ = 1 := by
    rw [show ({ jointSim with area := fun _ => 1 } : KSim ℚ (Fin 1)).lhs = 1 from rfl, Matrix.one_mul] at hΦ
    rw [hΦ]
    ext i j
    obtain rfl : i = j := Subsingleton.elim _ _
    simp [a2, jointSim]
  rw [this]; simp

end Pipedream.Kalman
