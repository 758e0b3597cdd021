import Verif.KalmanJointProps

/-!
# C195: what the certainty of the filter depends on

The covariance `kalman_filter` leaves (nutils.py 186–197, simulation.py 489–501) compared between two calls, and between two runs of
assimilations.
-/

namespace Pipedream.Kalman

open Matrix

variable {K : Type*} [Field K] [LinearOrder K] [IsStrictOrderedRing K]
variable {n m m' a : Type*} [Fintype n] [DecidableEq n] [Fintype m] [DecidableEq m] [Fintype m'] [DecidableEq m'] [Fintype a]
  [DecidableEq a]
variable {Z Z' : m → K} {P P' A1 A2 : Matrix n n K} {b b' : n → K} {H : Matrix m n K} {C : Matrix n a K} {Q Q' : Matrix a a K}
  {R R' : Matrix m m K} {o o' : Out K n m}

/-! ### Specification -/

/-- The uncertainty `P` is at most the uncertainty `P'`: in every direction the variance is. -/
def AtMost {n : Type*} [Fintype n] (P P' : Matrix n n K) : Prop := ∀ x : n → K, x ⬝ᵥ (P *ᵥ x) ≤ x ⬝ᵥ (P' *ᵥ x)

/-- Two assimilations into the same head system, with whatever right-hand sides and data. -/
structure SameSystem (p q : Assim K n m) : Prop where
  lhs : p.lhs = q.lhs
  area : p.area = q.area
  dt : p.dt = q.dt

omit [DecidableEq n] in
theorem psd_sub {P P' : Matrix n n K} (h : PSD P) (h' : PSD P') : PSD (P' - P) ↔ AtMost P P' := by
  constructor
  · intro d x
    have := d.2 x
    rw [sub_mulVec, dotProduct_sub] at this
    linarith
  · intro d
    refine ⟨by rw [transpose_sub, h.1, h'.1], fun x => ?_⟩
    rw [sub_mulVec, dotProduct_sub]
    have := d x
    linarith

omit [DecidableEq n] in
theorem AtMost.of_psd {P P' : Matrix n n K} (d : PSD (P' - P)) : AtMost P P' := by
  intro x
  have := d.2 x
  rw [sub_mulVec, dotProduct_sub] at this
  linarith

omit [DecidableEq a] in
theorem pred_mono (hP : PSD P) (hP' : PSD P') (hQ : PSD Q) (hQ' : PSD Q') (dP : AtMost P P') (dQ : AtMost Q Q') :
    PSD (pred A1 A2 P' C Q' - pred A1 A2 P C Q) := by
  have h1 := ((psd_sub hP hP').mpr dP).congr (A1⁻¹ * A2)
  have h2 := ((psd_sub hQ hQ').mpr dQ).congr C
  have := h1.add h2
  rw [transpose_mul] at this
  have e : pred A1 A2 P' C Q' - pred A1 A2 P C Q = A1⁻¹ * A2 * (P' - P) * (A2ᵀ * A1⁻¹ᵀ) + C * (Q' - Q) * Cᵀ := by
    simp only [pred, Matrix.mul_sub, Matrix.sub_mul, Matrix.mul_assoc]
    abel
  rw [e]
  exact this

/-! ### C195 -/

/-- **C195 (order).** A more certain prior, less process noise and less measurement noise leave a more certain estimate. -/
theorem C195_order (hP : PSD P) (hP' : PSD P') (hQ : PSD Q) (hQ' : PSD Q') (hR : PSD R) (hR' : PSD R') (dP : AtMost P P')
    (dQ : AtMost Q Q') (dR : AtMost R R') (h : kalman Z P A1 A2 b H C Q R = .ok o) (h' : kalman Z' P' A1 A2 b' H C Q' R' = .ok o') :
    AtMost o.P o'.P := by
  obtain ⟨hd, hs, L, hL, hoP, -, -⟩ := kalman_ok h'
  have hpp' : PSD (pred A1 A2 P' C Q') := pred_psd hP' hQ'
  have opt := (C50_optimal hP hQ hR h (pred_isPredicted hd C Q)).2 L
  have gap : PSD (gainCov (pred A1 A2 P' C Q') H R' L - gainCov (pred A1 A2 P C Q) H R L) := by
    have e : gainCov (pred A1 A2 P' C Q') H R' L - gainCov (pred A1 A2 P C Q) H R L
        = (1 - L * H) * (pred A1 A2 P' C Q' - pred A1 A2 P C Q) * (1 - L * H)ᵀ + L * (R' - R) * Lᵀ := by
      unfold gainCov
      generalize pred A1 A2 P' C Q' = X
      generalize pred A1 A2 P C Q = Y
      generalize (1 - L * H) = G
      simp only [Matrix.mul_sub, Matrix.sub_mul]
      abel
    rw [e]
    exact ((pred_mono hP hP' hQ hQ' dP dQ).congr _).add (((psd_sub hR hR').mpr dR).congr L)
  refine AtMost.of_psd ?_
  rw [hoP, post_eq_gainCov hpp'.1 hR'.1 hL]
  have := opt.add gap
  rwa [sub_add_sub_comm, add_comm (gainCov (pred A1 A2 P C Q) H R L), add_sub_add_right_eq_sub] at this

/-- **C195 (measured quantities).** After assimilation the measured quantities are at least as certain as their measurements, whatever
was known before. -/
theorem C195_measured (hP : PSD P) (hQ : PSD Q) (hR : PSD R) (h : kalman Z P A1 A2 b H C Q R = .ok o) : AtMost (H * o.P * Hᵀ) R := by
  obtain ⟨hd, hs, L, hL, hoP, -, -⟩ := kalman_ok h
  have hpp : PSD (pred A1 A2 P C Q) := pred_psd hP hQ
  generalize pred A1 A2 P C Q = Y at *
  set S := H * Y * Hᵀ + R with hS
  have hSp : PSD S := (hpp.congr H).add hR
  have hSt : (S⁻¹)ᵀ = S⁻¹ := by rw [transpose_nonsing_inv, hSp.1]
  have hLi : L = Y * Hᵀ * S⁻¹ := by
    rw [← hL, Matrix.mul_assoc, mul_nonsing_inv _ (Ne.isUnit hs), Matrix.mul_one]
  have hT : H * Y * Hᵀ = S - R := by rw [hS, add_sub_cancel_right]
  have e : R - H * o.P * Hᵀ = R * S⁻¹ * R := by
    rw [hoP, hLi]
    have : H * ((1 - Y * Hᵀ * S⁻¹ * H) * Y) * Hᵀ = H * Y * Hᵀ - (H * Y * Hᵀ) * S⁻¹ * (H * Y * Hᵀ) := by
      simp only [Matrix.sub_mul, Matrix.mul_sub, Matrix.one_mul, Matrix.mul_assoc]
    rw [this, hT]
    have u1 : S * S⁻¹ = 1 := mul_nonsing_inv _ (Ne.isUnit hs)
    have u2 : S⁻¹ * S = 1 := nonsing_inv_mul _ (Ne.isUnit hs)
    simp only [Matrix.sub_mul, Matrix.mul_sub, u1, Matrix.one_mul, Matrix.mul_assoc, u2, Matrix.mul_one]
    abel
  refine AtMost.of_psd ?_
  rw [e]
  have inv : PSD S⁻¹ := by
    have := hSp.congr S⁻¹
    rwa [hSt, Matrix.mul_assoc, mul_nonsing_inv _ (Ne.isUnit hs), Matrix.mul_one] at this
  have := inv.congr R
  rwa [hR.1] at this

/-- **C195 (one measurement).** Its variance `r` and the variance `t` of what was expected combine to `t r / (t + r)`. -/
theorem C195_single [Unique m] (h : kalman Z P A1 A2 b H C Q R = .ok o) :
    (H * o.P * Hᵀ) default default = (H * pred A1 A2 P C Q * Hᵀ) default default * R default default /
      ((H * pred A1 A2 P C Q * Hᵀ) default default + R default default) := by
  obtain ⟨hd, hs, L, hL, hoP, -, -⟩ := kalman_ok h
  generalize pred A1 A2 P C Q = Y at *
  have d : (H * Y * Hᵀ) default default + R default default ≠ 0 := by
    rwa [det_unique, Matrix.add_apply] at hs
  have e : H * o.P * Hᵀ = H * Y * Hᵀ - (H * L) * (H * Y * Hᵀ) := by
    rw [hoP]
    simp only [Matrix.sub_mul, Matrix.mul_sub, Matrix.one_mul, Matrix.mul_assoc]
  have f : (H * L) * (H * Y * Hᵀ + R) = H * Y * Hᵀ := by rw [Matrix.mul_assoc, hL, ← Matrix.mul_assoc]
  have f' := congrFun (congrFun f default) default
  have e' := congrFun (congrFun e default) default
  generalize H * Y * Hᵀ = T at *
  generalize H * L = G at *
  rw [Matrix.mul_apply, Fintype.sum_unique, Matrix.add_apply] at f'
  rw [Matrix.sub_apply, Matrix.mul_apply (M := G), Fintype.sum_unique] at e'
  rw [e', eq_div_iff d]
  calc (T default default - G default default * T default default) * (T default default + R default default)
      = T default default * (T default default + R default default)
        - T default default * (G default default * (T default default + R default default)) := by ring
    _ = _ := by rw [f']; ring

/-- **C195 (more measurements).** Measurements taken in addition, correlated with the others or not, leave no less certainty. -/
theorem C195_more (hP : PSD P) (hQ : PSD Q) (hR : PSD R) {H' : Matrix m' n K} {X : Matrix m m' K} {R'' : Matrix m' m' K}
    (hR'' : PSD (fromBlocks R X Xᵀ R'')) {Zj : m ⊕ m' → K} {oj : Out K n (m ⊕ m')} (h : kalman Z P A1 A2 b H C Q R = .ok o)
    (hj : kalman Zj P A1 A2 b' (fromRows H H') C Q (fromBlocks R X Xᵀ R'') = .ok oj) : AtMost oj.P o.P := by
  obtain ⟨hd, hs, L, hL, hoP, -, -⟩ := kalman_ok h
  have hpp : PSD (pred A1 A2 P C Q) := pred_psd hP hQ
  have opt := (C50_optimal hP hQ hR'' hj (pred_isPredicted hd C Q)).2 (fromCols L 0)
  refine AtMost.of_psd ?_
  rw [hoP, post_eq_gainCov hpp.1 hR.1 hL]
  have e : gainCov (pred A1 A2 P C Q) (fromRows H H') (fromBlocks R X Xᵀ R'') (fromCols L 0) = gainCov (pred A1 A2 P C Q) H R L := by
    unfold gainCov
    rw [fromCols_mul_fromRows, Matrix.zero_mul, add_zero, fromCols_mul_fromBlocks, transpose_fromCols, fromCols_mul_fromRows]
    simp
  rwa [e] at opt

/-- **C195 (data).** How certain the estimate is does not depend on what was measured, nor on the flows and heads of the step. -/
theorem C195_data (h : kalman Z P A1 A2 b H C Q R = .ok o) (h' : kalman Z' P A1 A2 b' H C Q R = .ok o') : o.P = o'.P := by
  obtain ⟨hd, hs, L, hL, hoP, -, -⟩ := kalman_ok h
  obtain ⟨-, -, L', hL', hoP', -, -⟩ := kalman_ok h'
  rw [hoP, hoP', right_cancel hs (hL.trans hL'.symm)]

/-- **C195 (runs).** Two runs of assimilations into the same head systems, with whatever data: the one that begins more certain and has
less noise ends more certain. -/
theorem C195_run (hQ : PSD Q) (hQ' : PSD Q') (hR : PSD R) (hR' : PSD R') (dQ : AtMost Q Q') (dR : AtMost R R')
    {os os' : List (Assim K n m)} (same : List.Forall₂ SameSystem os os') :
    ∀ {s s' t t' : KSim K n}, s.bc = s'.bc → PSD s.P → PSD s'.P → AtMost s.P s'.P →
      assimRun H C Q R os s = .ok t → assimRun H C Q' R' os' s' = .ok t' → AtMost t.P t'.P := by
  induction same with
  | nil =>
    intro s s' t t' _ _ _ d h h'
    rw [← Except.ok.inj h, ← Except.ok.inj h']
    exact d
  | @cons p q ps qs e _ ih =>
    intro s s' t t' hb hP hP' d h h'
    simp only [assimRun] at h h'
    cases h1 : kalmanFilter p.Z H C Q R p.dt { s with lhs := p.lhs, b := p.b, area := p.area } with
    | error er => rw [h1] at h; exact absurd h (by simp)
    | ok s1 =>
      cases h2 : kalmanFilter q.Z H C Q' R' q.dt { s' with lhs := q.lhs, b := q.b, area := q.area } with
      | error er => rw [h2] at h'; exact absurd h' (by simp)
      | ok s2 =>
        rw [h1] at h
        rw [h2] at h'
        obtain ⟨o1, k1, rfl⟩ := filter_ok h1
        obtain ⟨o2, k2, rfl⟩ := filter_ok h2
        refine ih ?_ ?_ ?_ ?_ h h'
        · exact hb
        · exact C50_covariance (P := s.P) hP hQ hR k1
        · exact C50_covariance (P := s'.P) hP' hQ' hR' k2
        · have a : a2 { s' with lhs := q.lhs, b := q.b, area := q.area } q.dt = a2 { s with lhs := p.lhs, b := p.b, area := p.area } p.dt := by
            unfold a2
            simp only [hb, e.area, e.dt]
          rw [a] at k2
          simp only [← e.lhs] at k2
          exact C195_order (P := s.P) (P' := s'.P) hP hP' hQ hQ' hR hR' d dQ dR k1 k2

/-! ### Non-vacuity -/

/-- One superjunction, prior variance 1 or 2, noise 1 or 3. -/
example : ∃ o o' : Out ℚ (Fin 1) (Fin 1),
    kalman (fun _ => 5) (1 : Matrix (Fin 1) (Fin 1) ℚ) 1 1 (fun _ => 0) 1 (1 : Matrix (Fin 1) (Fin 1) ℚ) 0 1 = .ok o ∧
    kalman (fun _ => 7) ((2 : ℚ) • (1 : Matrix (Fin 1) (Fin 1) ℚ)) 1 1 (fun _ => 1) 1 (1 : Matrix (Fin 1) (Fin 1) ℚ) 0
      ((3 : ℚ) • (1 : Matrix (Fin 1) (Fin 1) ℚ)) = .ok o' ∧ AtMost o.P o'.P ∧ AtMost (1 * o.P * 1ᵀ) 1 := by
  have p1 : PSD (1 : Matrix (Fin 1) (Fin 1) ℚ) := psd_one
  have p2 : PSD ((2 : ℚ) • (1 : Matrix (Fin 1) (Fin 1) ℚ)) := psd_one.smul (by norm_num)
  have p3 : PSD ((3 : ℚ) • (1 : Matrix (Fin 1) (Fin 1) ℚ)) := psd_one.smul (by norm_num)
  have le : ∀ c : ℚ, 1 ≤ c → AtMost (1 : Matrix (Fin 1) (Fin 1) ℚ) (c • (1 : Matrix (Fin 1) (Fin 1) ℚ)) := by
    intro c hc x
    rw [one_mulVec, smul_mulVec, one_mulVec, dotProduct_smul, smul_eq_mul]
    have := psd_one.2 x
    rw [one_mulVec] at this
    exact le_mul_of_one_le_left this hc
  have pos : ∀ c : ℚ, 0 < c → ∀ v : Fin 1 → ℚ, v ≠ 0 → 0 < v ⬝ᵥ ((c • (1 : Matrix (Fin 1) (Fin 1) ℚ)) *ᵥ v) := by
    intro c hc v hv
    have : v 0 ≠ 0 := fun e => hv (funext fun i => by rw [Subsingleton.elim i 0, e]; rfl)
    rw [smul_mulVec, one_mulVec, dotProduct_smul, smul_eq_mul]
    refine mul_pos hc ?_
    simp only [dotProduct, Finset.univ_unique, Finset.sum_singleton]
    exact mul_self_pos.mpr this
  obtain ⟨o, h⟩ := C50_completes (Z := fun _ => (5 : ℚ)) (A2 := 1) (b := fun _ => 0) (H := (1 : Matrix (Fin 1) (Fin 1) ℚ))
    (C := (1 : Matrix (Fin 1) (Fin 1) ℚ)) (A1 := (1 : Matrix (Fin 1) (Fin 1) ℚ)) (R := (1 : Matrix (Fin 1) (Fin 1) ℚ))
    p1 (psd_zero (n := Fin 1)) (by simpa using pos 1 (by norm_num)) (by simp)
  obtain ⟨o', h'⟩ := C50_completes (Z := fun _ => (7 : ℚ)) (A2 := 1) (b := fun _ => 1) (H := (1 : Matrix (Fin 1) (Fin 1) ℚ))
    (C := (1 : Matrix (Fin 1) (Fin 1) ℚ)) (A1 := (1 : Matrix (Fin 1) (Fin 1) ℚ)) (R := (3 : ℚ) • (1 : Matrix (Fin 1) (Fin 1) ℚ))
    p2 (psd_zero (n := Fin 1)) (pos 3 (by norm_num)) (by simp)
  exact ⟨o, o', h, h', C195_order p1 p2 psd_zero psd_zero p1 p3 (le 2 (by norm_num)) (fun _ => le_rfl) (le 3 (by norm_num)) h h',
    C195_measured p1 psd_zero p1 h⟩

end Pipedream.Kalman
