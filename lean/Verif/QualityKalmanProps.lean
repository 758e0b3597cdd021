import Verif.QualityKalmanModel
import Verif.KalmanProps
import Verif.QualityExact
import Verif.QualityMass
import Mathlib.Tactic.Ring
import Mathlib.Tactic.Linarith
import Mathlib.Tactic.FieldSimp
import Mathlib.Tactic.FinCases
import Mathlib.LinearAlgebra.Matrix.ToLinearEquiv

/-!
# Properties of the water-quality Kalman filter: C80–C83
-/

set_option linter.unusedSectionVars false

namespace Pipedream.Quality

open Matrix Kalman

variable {K : Type*} [Field K] [LinearOrder K] [IsStrictOrderedRing K]
variable {n : Type*} [Fintype n] [DecidableEq n]

/-! ### What an update computes -/

/-- `x` is the filter's prediction: the solution of the step's equations with the stored contaminant of the
superjunctions changed by `V/dt` times the difference between the filter's estimate and the concentrations
the filter believes the step started from. -/
def Predicts (c : Call K n) (s : KF K n) (x : n → K) : Prop :=
  ∀ j, (c.lhs *ᵥ x) j = c.b j + c.V j / c.dt * (s.xHat j - s.cPrev j)

/-- `Pp` is the predicted covariance `Φ P Φᵀ + Q` with `lhs Φ = diag(V/dt)`. -/
def PredCov (c : Call K n) (Q : Matrix n n K) (s : KF K n) (Pp : Matrix n n K) : Prop :=
  ∃ Φ : Matrix n n K, c.lhs * Φ = diagonal (fun j => c.V j / c.dt) ∧ Pp = Φ * s.P * Φᵀ + Q

theorem solve_unique {A : Matrix n n K} (hd : A.det ≠ 0) {u v : n → K} (h : A *ᵥ u = A *ᵥ v) : u = v := by
  have := congrArg (fun w => A⁻¹ *ᵥ w) h
  simpa [mulVec_mulVec, nonsing_inv_mul _ (Ne.isUnit hd)] using this

theorem predicts_inv (c : Call K n) (s : KF K n) (hd : c.lhs.det ≠ 0) :
    Predicts c s ((c.lhs⁻¹ * c.A1) *ᵥ s.xHat + c.lhs⁻¹ *ᵥ (c.b - c.A1 *ᵥ s.cPrev)) := by
  intro j
  rw [mulVec_add, mulVec_mulVec, ← Matrix.mul_assoc, mul_nonsing_inv _ (Ne.isUnit hd), Matrix.one_mul, mulVec_mulVec,
    mul_nonsing_inv _ (Ne.isUnit hd), one_mulVec]
  simp only [Call.A1, Pi.add_apply, Pi.sub_apply, mulVec_diagonal]
  ring

theorem predicts_unique {c : Call K n} {s : KF K n} (hd : c.lhs.det ≠ 0) {x y : n → K} (hx : Predicts c s x)
    (hy : Predicts c s y) : x = y :=
  solve_unique hd (funext fun j => (hx j).trans (hy j).symm)

theorem predCov_unique {c : Call K n} {Q : Matrix n n K} {s : KF K n} (hd : c.lhs.det ≠ 0) {X Y : Matrix n n K}
    (hX : PredCov c Q s X) (hY : PredCov c Q s Y) : X = Y := by
  obtain ⟨Φ, h1, rfl⟩ := hX
  obtain ⟨Ψ, h2, rfl⟩ := hY
  have : Φ = Ψ := by
    have := congrArg (fun w => c.lhs⁻¹ * w) (h1.trans h2.symm)
    simpa [← Matrix.mul_assoc, nonsing_inv_mul _ (Ne.isUnit hd)] using this
  rw [this]

theorem predCov_inv (c : Call K n) (Q : Matrix n n K) (s : KF K n) (hd : c.lhs.det ≠ 0) :
    PredCov c Q s (c.lhs⁻¹ * c.A1 * s.P * (c.lhs⁻¹ * c.A1)ᵀ + Q) :=
  ⟨_, by rw [← Matrix.mul_assoc, mul_nonsing_inv _ (Ne.isUnit hd), Matrix.one_mul]; rfl, rfl⟩

theorem hk_mul (c : Call K n) (x : n → K) (i : Fin 1) : (c.Hk *ᵥ x) i = x c.obs := by
  simp [Call.Hk, mulVec, dotProduct]

theorem mul_hkT (c : Call K n) (X : Matrix n n K) (j : n) (i : Fin 1) : (X * c.Hkᵀ) j i = X j c.obs := by
  simp [Call.Hk, Matrix.mul_apply]

theorem hk_mul_mat (c : Call K n) (X : Matrix n n K) (i : Fin 1) (j : n) : (c.Hk * X) i j = X c.obs j := by
  simp [Call.Hk, Matrix.mul_apply]

/-- A 1×1 matrix. -/
def c11 (a : K) : Matrix (Fin 1) (Fin 1) K := Matrix.of fun _ _ => a

theorem innovation (c : Call K n) (X : Matrix n n K) :
    c.Hk * X * c.Hkᵀ + c.R = c11 (X c.obs c.obs + c.sv ^ 2) := by
  funext i j
  rw [Matrix.add_apply, Matrix.mul_assoc, Matrix.mul_apply]
  simp only [mul_hkT, Call.R, c11]
  simp [Call.Hk]

theorem det_const (a : K) : (c11 a).det = a := by
  rw [Matrix.det_fin_one]; rfl

theorem inv_const {a : K} (ha : a ≠ 0) : (c11 a)⁻¹ = c11 a⁻¹ := by
  apply Matrix.inv_eq_right_inv
  ext i j
  fin_cases i
  fin_cases j
  simp [Matrix.mul_apply, c11, ha]

/-- The update in scalar form: every superjunction moves by its covariance with the observed one, relative to
the innovation variance. -/
structure Updates (c : Call K n) (Q : Matrix n n K) (z : K) (s : KF K n) (x' : n → K) (P' : Matrix n n K) :
    Prop where
  regular : c.lhs.det ≠ 0
  state : ∀ x Pp, Predicts c s x → PredCov c Q s Pp → Pp c.obs c.obs + c.sv ^ 2 ≠ 0 ∧
    ∀ j, x' j = max 0 (x j + Pp j c.obs / (Pp c.obs c.obs + c.sv ^ 2) * (z - x c.obs))
  cov : ∀ Pp, PredCov c Q s Pp → ∀ i j, P' i j = Pp i j - Pp i c.obs * Pp c.obs j / (Pp c.obs c.obs + c.sv ^ 2)

theorem kfUpdate_ok {c : Call K n} {Q : Matrix n n K} {z : K} {s : KF K n} {x' : n → K} {P' : Matrix n n K}
    (h : kfUpdate c Q z s = .ok (x', P')) : Updates c Q z s x' P' := by
  unfold kfUpdate at h
  cases h1 : npInv c.lhs with
  | error e => rw [h1] at h; exact absurd h (by simp)
  | ok Ai =>
    obtain ⟨hd, rfl⟩ := npInv_ok h1
    rw [h1] at h
    simp only [innovation] at h
    cases h2 : npInv (c11 ((c.lhs⁻¹ * c.A1 * s.P * (c.lhs⁻¹ * c.A1)ᵀ + Q) c.obs c.obs + c.sv ^ 2)) with
    | error e => rw [h2] at h; exact absurd h (by simp)
    | ok Si =>
      obtain ⟨hs, rfl⟩ := npInv_ok h2
      rw [h2] at h
      rw [det_const] at hs
      simp only [hk_mul] at h
      have h := Except.ok.inj h
      have hx := congrArg Prod.fst h
      have hP := congrArg Prod.snd h
      simp only at hx hP
      refine ⟨hd, ?_, ?_⟩
      · intro x Pp hp hc
        rw [predicts_unique hd hp (predicts_inv c s hd), predCov_unique hd hc (predCov_inv c Q s hd)]
        refine ⟨hs, fun j => ?_⟩
        rw [← hx]
        simp only [Pi.add_apply, inv_const hs]
        have e : ∀ (X : Matrix n n K) (a r : K), ((X * c.Hkᵀ * c11 a⁻¹) *ᵥ fun _ => r) j = X j c.obs / a * r := by
          intro X a r
          simp only [mulVec, dotProduct, Matrix.mul_apply (M := X * c.Hkᵀ), mul_hkT]
          simp [div_eq_mul_inv, c11]
        rw [e]
        rcases lt_or_ge (_ : K) 0 with hlt | hge
        · rw [if_pos hlt, max_eq_left hlt.le]
        · rw [if_neg (not_lt.2 hge), max_eq_right hge]
      · intro Pp hc i j
        have e : ∀ (X : Matrix n n K) (a : K), (X * c.Hkᵀ * c11 a⁻¹ * c.Hk * X) i j = X i c.obs * X c.obs j / a := by
          intro X a
          rw [Matrix.mul_assoc _ c.Hk X, Matrix.mul_apply]
          simp only [Matrix.mul_apply (M := X * c.Hkᵀ), mul_hkT, hk_mul_mat]
          simp only [Finset.univ_unique, Finset.sum_const, Finset.card_singleton, one_smul, c11, Matrix.of_apply]
          ring
        rw [predCov_unique hd hc (predCov_inv c Q s hd), ← hP, Matrix.sub_apply, inv_const hs, e]

/-- The update completes exactly when the step's matrix and the innovation variance are not zero. -/
theorem kfUpdate_ok_iff {c : Call K n} {Q : Matrix n n K} {z : K} {s : KF K n} :
    (∃ r, kfUpdate c Q z s = .ok r) ↔
      c.lhs.det ≠ 0 ∧ ∀ Pp, PredCov c Q s Pp → Pp c.obs c.obs + c.sv ^ 2 ≠ 0 := by
  constructor
  · rintro ⟨⟨x', P'⟩, h⟩
    have u := kfUpdate_ok h
    exact ⟨u.regular, fun Pp hp => (u.state _ Pp (predicts_inv c s u.regular) hp).1⟩
  · rintro ⟨hd, h⟩
    have hs := h _ (predCov_inv c Q s hd)
    unfold kfUpdate
    rw [npInv_of hd]
    simp only [innovation]
    rw [npInv_of (by rw [det_const]; exact hs)]
    exact ⟨_, rfl⟩

theorem kfStep_ok {c : Call K n} {s s' : KF K n} (h : kfStep c s = .ok s') :
    Updates c c.Q c.z s s'.xHat s'.P ∧ s'.cj = s'.xHat ∧ s'.cPrev = s'.xHat := by
  unfold kfStep at h
  cases h1 : kfUpdate c c.Q c.z s with
  | error e => rw [h1] at h; exact absurd h (by simp)
  | ok r =>
    obtain ⟨x, P⟩ := r
    rw [h1] at h
    have h := Except.ok.inj h
    subst h
    exact ⟨kfUpdate_ok h1, rfl, rfl⟩

/-! ### C80: prediction -/

/-- **C80.** The filter's prediction is the solution of the model step exactly when, at every superjunction,
its estimate is the concentration it believes the step started from or the superjunction holds no water. -/
theorem C80_prediction_iff {c : Call K n} {s : KF K n} (hd : c.lhs.det ≠ 0) (hdt : c.dt ≠ 0) {x y : n → K}
    (hx : Predicts c s x) (hy : c.lhs *ᵥ y = c.b) :
    x = y ↔ ∀ j, s.xHat j = s.cPrev j ∨ c.V j = 0 := by
  constructor
  · rintro rfl j
    have h1 := hx j
    rw [hy] at h1
    have h2 : c.V j / c.dt * (s.xHat j - s.cPrev j) = 0 := by linarith
    rcases mul_eq_zero.1 h2 with h | h
    · right
      rcases div_eq_zero_iff.1 h with h | h
      · exact h
      · exact absurd h hdt
    · left; linarith
  · intro h
    refine solve_unique hd (funext fun j => ?_)
    rw [hy, hx j]
    rcases h j with h | h
    · rw [h]; ring
    · rw [h]; ring

/-- **C80 (after the first call).** Once the filter has run, the next call predicts with the model: the
prediction is the solution of the step's equations. -/
theorem C80_later_calls_partial {c c' : Call K n} {s s' : KF K n} (h : kfStep c s = .ok s') (cj : n → K)
    (hd : c'.lhs.det ≠ 0) (hdt : c'.dt ≠ 0) {x y : n → K} (hx : Predicts c' { s' with cj := cj } x)
    (hy : c'.lhs *ᵥ y = c'.b) : x = y :=
  (C80_prediction_iff hd hdt hx hy).2 fun j => Or.inl (by
    have := (kfStep_ok h).2.2
    simp only [this])

/-- **C80 is violated on the first call**: the estimate starts at zero, so the prediction is the model's
only if no superjunction with water starts with contaminant. -/
theorem C80_first_call_iff {c : Call K n} {c0 c1 : n → K} (hd : c.lhs.det ≠ 0) (hdt : c.dt ≠ 0) {x y : n → K}
    (hx : Predicts c (kfInit c0 c1) x) (hy : c.lhs *ᵥ y = c.b) :
    x = y ↔ ∀ j, c0 j = 0 ∨ c.V j = 0 := by
  rw [C80_prediction_iff hd hdt hx hy]
  simp only [kfInit, eq_comm]

/-- **C80, fixed superjunctions on the first call.** At a superjunction whose concentration is prescribed
the first prediction is the prescribed value less `V/dt` times the initial concentration; if that is
negative and the observed superjunction is not correlated with it, the filter returns zero there. -/
theorem C80_first_boundary {c : Call K n} {c0 c1 x : n → K} {j : n} (hrow : c.lhs j = Pi.single j 1)
    (hx : Predicts c (kfInit c0 c1) x) : x j = c.b j - c.V j / c.dt * c0 j := by
  have h := hx j
  simp only [kfInit, mulVec, hrow, single_dotProduct, one_mul] at h
  rw [h]; ring

theorem C80_first_boundary_lost {c : Call K n} {c0 c1 : n → K} {s' : KF K n} {j : n} (hj : j ≠ c.obs)
    (hrow : c.lhs j = Pi.single j 1) (hc : c.corr = false) (hneg : c.b j ≤ c.V j / c.dt * c0 j)
    (h : kfStep c (kfInit c0 c1) = .ok s') : s'.cj j = 0 := by
  obtain ⟨u, e1, -⟩ := kfStep_ok h
  have hp : PredCov c c.Q (kfInit c0 c1) c.Q := ⟨c.lhs⁻¹ * c.A1, by
    rw [← Matrix.mul_assoc, mul_nonsing_inv _ (Ne.isUnit u.regular), Matrix.one_mul]; rfl, by
    simp [kfInit]⟩
  have hx := predicts_inv c (kfInit c0 c1) u.regular
  have := (u.state _ _ hx hp).2 j
  have q0 : c.Q j c.obs = 0 := by simp [Call.Q, hc, hj]
  rw [e1, this, q0, zero_div, zero_mul, add_zero, C80_first_boundary hrow hx]
  exact max_eq_left (by linarith)

/-- `KF_Multi_WQ` returns matrices with `A_k c_prev + B_k` equal to the solution of the step. -/
theorem C80_multi {c : Call K n} {s s' : KF K n} {A : Matrix n n K} {B y : n → K}
    (h : kfMulti c s = .ok (A, B, s')) (hy : c.lhs *ᵥ y = c.b) : A *ᵥ s.cPrev + B = y := by
  unfold kfMulti at h
  cases h1 : npInv c.lhs with
  | error e => rw [h1] at h; exact absurd h (by simp)
  | ok Ai =>
    obtain ⟨hd, rfl⟩ := npInv_ok h1
    rw [h1] at h
    have h := Except.ok.inj h
    have hA := congrArg Prod.fst h
    have hB := congrArg (fun t => t.2.1) h
    simp only at hA hB
    subst hA hB
    refine solve_unique hd ?_
    rw [mulVec_add, mulVec_mulVec, ← Matrix.mul_assoc, mul_nonsing_inv _ (Ne.isUnit hd), Matrix.one_mul,
      mulVec_mulVec, mul_nonsing_inv _ (Ne.isUnit hd), one_mulVec, hy]
    abel

/-! ### C81: limits and fixed concentrations -/

/-- **C81.** Filtered concentrations are never negative. -/
theorem C81_nonneg_partial {c : Call K n} {s s' : KF K n} (h : kfStep c s = .ok s') (j : n) : 0 ≤ s'.cj j := by
  obtain ⟨u, e1, -⟩ := kfStep_ok h
  rw [e1, (u.state _ _ (predicts_inv c s u.regular) (predCov_inv c _ s u.regular)).2 j]
  exact le_max_left _ _

theorem predCov_diag_pos {c : Call K n} {s : KF K n} (hP : PSD s.P) (hc : c.sw ≠ 0) {Pp : Matrix n n K}
    (hp : PredCov c c.Q s Pp) (j : n) : 0 < Pp j j := by
  obtain ⟨Φ, -, rfl⟩ := hp
  have h1 := (hP.congr Φ).2 (Pi.single j 1)
  rw [mulVec_single, single_dotProduct] at h1
  simp only [Matrix.col_apply, Pi.smul_apply, one_mul, MulOpposite.op_one, one_smul] at h1
  have h2 : c.Q j j = c.sw ^ 2 := by
    unfold Call.Q
    cases c.corr <;> simp
  rw [Matrix.add_apply, h2]
  have := pow_pos (abs_pos.2 hc) 2
  rw [sq_abs] at this
  linarith

/-- **C81 is violated for the upper limit**: with any process noise, every bound is exceeded by some
measurement at the observed superjunction. -/
theorem C81_no_upper_limit {c : Call K n} {s : KF K n} (hP : PSD s.P) (hd : c.lhs.det ≠ 0) (hw : c.sw ≠ 0) (m : K) :
    ∃ z s', kfStep { c with z := z } s = .ok s' ∧ m < s'.cj c.obs := by
  have hd' := predCov_inv c c.Q s hd
  have hx := predicts_inv c s hd
  set Pp := c.lhs⁻¹ * c.A1 * s.P * (c.lhs⁻¹ * c.A1)ᵀ + c.Q with hPp
  set x := (c.lhs⁻¹ * c.A1) *ᵥ s.xHat + c.lhs⁻¹ *ᵥ (c.b - c.A1 *ᵥ s.cPrev) with hxx
  have hpos : 0 < Pp c.obs c.obs := predCov_diag_pos hP hw hd' _
  have hS : 0 < Pp c.obs c.obs + c.sv ^ 2 := by positivity
  let z : K := x c.obs + (m + 1 - x c.obs) * (Pp c.obs c.obs + c.sv ^ 2) / Pp c.obs c.obs
  obtain ⟨⟨x', P'⟩, hr⟩ := (kfUpdate_ok_iff (c := { c with z := z }) (Q := c.Q) (z := z) (s := s)).2
    ⟨hd, fun Pp' hp' => by
      have : Pp' = Pp := predCov_unique (c := c) hd hp' hd'
      rw [this]; exact hS.ne'⟩
  refine ⟨z, ⟨x', x', x', P'⟩, ?_, ?_⟩
  · show (match kfUpdate { c with z := z } c.Q z s with | .error e => _ | .ok (x, P) => _) = _
    rw [hr]
  · have u := kfUpdate_ok hr
    have := (u.state x Pp hx hd').2 c.obs
    show m < x' c.obs
    rw [this]
    refine lt_of_lt_of_le ?_ (le_max_right _ _)
    have e : x c.obs + Pp c.obs c.obs / (Pp c.obs c.obs + c.sv ^ 2) * (z - x c.obs) = m + 1 := by
      simp only [z]
      have := hpos.ne'
      have := hS.ne'
      field_simp
      ring
    show m < x c.obs + Pp c.obs c.obs / (Pp c.obs c.obs + c.sv ^ 2) * (z - x c.obs)
    rw [e]; linarith

/-- **C81 is violated at fixed superjunctions.** With correlated process noise the first call moves every
superjunction, fixed or not, by the same fraction of the innovation. -/
theorem C81_correlated_moves_all {c : Call K n} {s s' : KF K n} (hP : s.P = 0) (hc : c.corr = true) {x : n → K}
    (hx : Predicts c s x) (h : kfStep c s = .ok s') (j : n) :
    s'.cj j = max 0 (x j + c.sw ^ 2 / (c.sw ^ 2 + c.sv ^ 2) * (c.z - x c.obs)) := by
  obtain ⟨u, e1, -⟩ := kfStep_ok h
  have hp : PredCov c c.Q s c.Q := ⟨c.lhs⁻¹ * c.A1, by
    rw [← Matrix.mul_assoc, mul_nonsing_inv _ (Ne.isUnit u.regular), Matrix.one_mul]; rfl, by simp [hP]⟩
  rw [e1, (u.state _ _ hx hp).2 j]
  simp [Call.Q, hc]

/-- With uncorrelated noise the first call moves the observed superjunction only. -/
theorem C81_uncorrelated_first_partial {c : Call K n} {s s' : KF K n} (hP : s.P = 0) (hc : c.corr = false)
    {x : n → K} (hx : Predicts c s x) (h : kfStep c s = .ok s') {j : n} (hj : j ≠ c.obs) :
    s'.cj j = max 0 (x j) := by
  obtain ⟨u, e1, -⟩ := kfStep_ok h
  have hp : PredCov c c.Q s c.Q := ⟨c.lhs⁻¹ * c.A1, by
    rw [← Matrix.mul_assoc, mul_nonsing_inv _ (Ne.isUnit u.regular), Matrix.one_mul]; rfl, by simp [hP]⟩
  rw [e1, (u.state _ _ hx hp).2 j]
  simp [Call.Q, hc, hj]

/-! ### C82: covariance and correction -/

theorem psd_Q (c : Call K n) : PSD c.Q := by
  unfold Call.Q
  cases c.corr with
  | false => exact psd_one.smul (sq_nonneg _)
  | true =>
    refine ⟨rfl, fun x => ?_⟩
    have : x ⬝ᵥ ((Matrix.of fun _ _ => c.sw ^ 2 : Matrix n n K) *ᵥ x) = (c.sw * ∑ i, x i) ^ 2 := by
      simp only [mulVec, dotProduct, Matrix.of_apply, ← Finset.mul_sum, ← Finset.sum_mul]
      ring
    rw [if_pos rfl, this]
    exact sq_nonneg _

theorem psd_predCov {c : Call K n} {s : KF K n} (hP : PSD s.P) {Pp : Matrix n n K} (hp : PredCov c c.Q s Pp) :
    PSD Pp := by
  obtain ⟨Φ, -, rfl⟩ := hp
  exact (hP.congr Φ).add (psd_Q c)

theorem quad_apply {P : Matrix n n K} (x : n → K) : x ⬝ᵥ (P *ᵥ x) = ∑ i, ∑ j, x i * P i j * x j := by
  simp only [dotProduct, mulVec, Finset.mul_sum, mul_assoc]

/-- **C82, covariance.** From a covariance matrix a completed call leaves a covariance matrix (symmetric, no
negative variance in any direction) that is nowhere larger than the predicted one. -/
theorem C82_covariance {c : Call K n} {s s' : KF K n} (hP : PSD s.P) (h : kfStep c s = .ok s') {Pp : Matrix n n K}
    (hp : PredCov c c.Q s Pp) : PSD s'.P ∧ PSD (Pp - s'.P) := by
  obtain ⟨u, -, -⟩ := kfStep_ok h
  have pp := psd_predCov hP hp
  have hS := (u.state _ Pp (predicts_inv c s u.regular) hp).1
  have sym : ∀ i j, Pp i j = Pp j i := fun i j => by
    have := congrFun (congrFun pp.1 j) i
    simpa using this
  have hS0 : 0 ≤ Pp c.obs c.obs := by
    have := pp.2 (Pi.single c.obs 1)
    rw [mulVec_single, single_dotProduct] at this
    simpa using this
  have hSp : 0 < Pp c.obs c.obs + c.sv ^ 2 := lt_of_le_of_ne (by positivity) (Ne.symm hS)
  set S := Pp c.obs c.obs + c.sv ^ 2 with hSd
  have quad : ∀ x : n → K, ∑ i, ∑ j, x i * (Pp i c.obs * Pp c.obs j / S) * x j
      = (∑ i, x i * Pp i c.obs) ^ 2 / S := by
    intro x
    rw [sq, Finset.sum_mul_sum, Finset.sum_div]
    refine Finset.sum_congr rfl fun i _ => ?_
    rw [Finset.sum_div]
    refine Finset.sum_congr rfl fun j _ => ?_
    rw [sym c.obs j]
    ring
  have col : ∀ x : n → K, ∑ i, x i * Pp i c.obs = x ⬝ᵥ (Pp *ᵥ Pi.single c.obs 1) := by
    intro x
    rw [mulVec_single]
    simp [dotProduct]
  constructor
  · refine ⟨?_, fun x => ?_⟩
    · funext i j
      rw [transpose_apply, u.cov Pp hp, u.cov Pp hp, sym j i, sym j c.obs, sym c.obs i]
      ring
    · -- test the predicted covariance on `x - t e_obs`, `t` the normalised correlation
      have e : x ⬝ᵥ (s'.P *ᵥ x) = x ⬝ᵥ (Pp *ᵥ x) - (∑ i, x i * Pp i c.obs) ^ 2 / S := by
        rw [quad_apply, quad_apply, ← quad x, ← Finset.sum_sub_distrib]
        refine Finset.sum_congr rfl fun i _ => ?_
        rw [← Finset.sum_sub_distrib]
        refine Finset.sum_congr rfl fun j _ => ?_
        rw [u.cov Pp hp]; ring
      set r := ∑ i, x i * Pp i c.obs with hr
      have h1 := pp.2 (x - (r / S) • Pi.single c.obs 1)
      have e2 : (x - (r / S) • Pi.single c.obs 1) ⬝ᵥ (Pp *ᵥ (x - (r / S) • Pi.single c.obs (1 : K)))
          = x ⬝ᵥ (Pp *ᵥ x) - 2 * (r / S) * r + (r / S) ^ 2 * Pp c.obs c.obs := by
        have c1 : (Pi.single c.obs (1 : K)) ⬝ᵥ (Pp *ᵥ x) = r := by
          rw [single_dotProduct, one_mul, hr]
          simp only [mulVec, dotProduct]
          exact Finset.sum_congr rfl fun i _ => by rw [sym c.obs i]; ring
        have c2 : (Pi.single c.obs (1 : K)) ⬝ᵥ (Pp *ᵥ Pi.single c.obs 1) = Pp c.obs c.obs := by
          rw [single_dotProduct, mulVec_single]; simp
        rw [mulVec_sub, mulVec_smul, sub_dotProduct, dotProduct_sub, dotProduct_sub, smul_dotProduct, dotProduct_smul,
          smul_dotProduct, dotProduct_smul, c1, c2, ← col x, ← hr]
        simp only [smul_eq_mul]
        ring
      rw [e2] at h1
      rw [e]
      have h2 : r ^ 2 / S = 2 * (r / S) * r - (r / S) ^ 2 * S := by
        field_simp; ring
      rw [h2]
      have h3 : (r / S) ^ 2 * Pp c.obs c.obs ≤ (r / S) ^ 2 * S :=
        mul_le_mul_of_nonneg_left (by rw [hSd]; linarith [sq_nonneg c.sv]) (sq_nonneg _)
      linarith
  · refine ⟨?_, fun x => ?_⟩
    · funext i j
      rw [transpose_apply, Matrix.sub_apply, Matrix.sub_apply, u.cov Pp hp, u.cov Pp hp, sym j i, sym j c.obs,
        sym c.obs i]
      ring
    · have e : x ⬝ᵥ ((Pp - s'.P) *ᵥ x) = (∑ i, x i * Pp i c.obs) ^ 2 / S := by
        rw [quad_apply, ← quad x]
        refine Finset.sum_congr rfl fun i _ => Finset.sum_congr rfl fun j _ => ?_
        rw [Matrix.sub_apply, u.cov Pp hp]; ring
      rw [e]
      exact div_nonneg (sq_nonneg _) hSp.le

/-- **C82, correction.** At the observed superjunction the estimate lies between the prediction and the
measurement (both nonnegative). -/
theorem C82_between {c : Call K n} {s s' : KF K n} (hP : PSD s.P) (h : kfStep c s = .ok s') {x : n → K}
    (hx : Predicts c s x) (h0 : 0 ≤ x c.obs) (hz : 0 ≤ c.z) :
    min (x c.obs) c.z ≤ s'.cj c.obs ∧ s'.cj c.obs ≤ max (x c.obs) c.z := by
  obtain ⟨u, e1, -⟩ := kfStep_ok h
  have hp := predCov_inv c c.Q s u.regular
  set Pp := c.lhs⁻¹ * c.A1 * s.P * (c.lhs⁻¹ * c.A1)ᵀ + c.Q
  obtain ⟨hS, hst⟩ := u.state x Pp hx hp
  have hS0 : 0 ≤ Pp c.obs c.obs := by
    have := (psd_predCov hP hp).2 (Pi.single c.obs 1)
    rw [mulVec_single, single_dotProduct] at this
    simpa using this
  have hSp : 0 < Pp c.obs c.obs + c.sv ^ 2 := lt_of_le_of_ne (by positivity) (Ne.symm hS)
  set g := Pp c.obs c.obs / (Pp c.obs c.obs + c.sv ^ 2) with hg
  have g0 : 0 ≤ g := div_nonneg hS0 hSp.le
  have g1 : g ≤ 1 := (div_le_one hSp).2 (by linarith [sq_nonneg c.sv])
  have lo : min (x c.obs) c.z ≤ x c.obs + g * (c.z - x c.obs) := by
    rcases le_total (x c.obs) c.z with hle | hle
    · rw [min_eq_left hle]; nlinarith
    · rw [min_eq_right hle]; nlinarith
  have hi : x c.obs + g * (c.z - x c.obs) ≤ max (x c.obs) c.z := by
    rcases le_total (x c.obs) c.z with hle | hle
    · rw [max_eq_right hle]; nlinarith
    · rw [max_eq_left hle]; nlinarith
  have nn : 0 ≤ x c.obs + g * (c.z - x c.obs) := le_trans (le_min h0 hz) lo
  rw [e1, hst c.obs, max_eq_right nn]
  exact ⟨lo, hi⟩

/-- **C82, exact measurements.** Without measurement noise the filter reproduces the measurement. -/
theorem C82_exact_data {c : Call K n} {s s' : KF K n} (hv : c.sv = 0) (hz : 0 ≤ c.z) (h : kfStep c s = .ok s') :
    s'.cj c.obs = c.z := by
  obtain ⟨u, e1, -⟩ := kfStep_ok h
  obtain ⟨hS, hst⟩ := u.state _ _ (predicts_inv c s u.regular) (predCov_inv c c.Q s u.regular)
  rw [e1, hst c.obs]
  rw [hv, zero_pow two_ne_zero, add_zero] at hS ⊢
  rw [div_self hS, one_mul, add_sub_cancel]
  exact max_eq_right hz

/-- **C82, agreement.** If the measurement agrees with a nonnegative prediction, the prediction is kept. -/
theorem C82_agreement {c : Call K n} {s s' : KF K n} (h : kfStep c s = .ok s') {x : n → K} (hx : Predicts c s x)
    (h0 : ∀ j, 0 ≤ x j) (hz : c.z = x c.obs) : s'.cj = x := by
  obtain ⟨u, e1, -⟩ := kfStep_ok h
  funext j
  rw [e1, (u.state x _ hx (predCov_inv c c.Q s u.regular)).2 j, hz, sub_self, mul_zero, add_zero, max_eq_right (h0 j)]

/-- **C82, a run.** From the constructor on, whatever the steps in between do, every completed sequence of calls
leaves a covariance matrix and, after the first, the estimate, the concentrations and the remembered
concentrations coincide and are nonnegative. -/
theorem C82_run {os : List ((n → K) × Call K n)} {s s' : KF K n} (hP : PSD s.P) (h : kfRun os s = .ok s') :
    PSD s'.P ∧ (os ≠ [] → s'.cj = s'.xHat ∧ s'.cPrev = s'.xHat ∧ ∀ j, 0 ≤ s'.cj j) := by
  induction os generalizing s with
  | nil =>
    have := Except.ok.inj h
    subst this
    exact ⟨hP, fun h => absurd rfl h⟩
  | cons o os ih =>
    obtain ⟨cj, c⟩ := o
    unfold kfRun at h
    cases h1 : kfStep c { s with cj := cj } with
    | error e => rw [h1] at h; exact absurd h (by simp)
    | ok s1 =>
      rw [h1] at h
      have hd := (kfStep_ok h1).1.regular
      have hP1 := (C82_covariance (s := { s with cj := cj }) hP h1 (predCov_inv c c.Q _ hd)).1
      obtain ⟨a, b⟩ := ih hP1 h
      refine ⟨a, fun _ => ?_⟩
      by_cases hos : os = []
      · subst hos
        have := Except.ok.inj h
        subst this
        exact ⟨(kfStep_ok h1).2.1, (kfStep_ok h1).2.2, fun j => C81_nonneg_partial h1 j⟩
      · exact b hos

/-- **C82, availability.** With a regular system and either noise present the call completes; the innovation
variance of the first call is `sw² + sv²`, so without any noise it raises. -/
theorem C82_completes {c : Call K n} {s : KF K n} (hP : PSD s.P) (hd : c.lhs.det ≠ 0) (hn : c.sw ≠ 0 ∨ c.sv ≠ 0) :
    ∃ s', kfStep c s = .ok s' := by
  have : ∃ r, kfUpdate c c.Q c.z s = .ok r := by
    refine kfUpdate_ok_iff.2 ⟨hd, fun Pp hp => ?_⟩
    rcases hn with hn | hn
    · have := predCov_diag_pos hP hn hp c.obs
      exact ne_of_gt (by positivity)
    · have h1 := (psd_predCov hP hp).2 (Pi.single c.obs 1)
      rw [mulVec_single, single_dotProduct] at h1
      have h2 : 0 ≤ Pp c.obs c.obs := by simpa using h1
      have h3 : 0 < c.sv ^ 2 := by positivity
      exact ne_of_gt (by linarith)
  obtain ⟨⟨x, P⟩, hr⟩ := this
  exact ⟨⟨x, x, x, P⟩, by unfold kfStep; rw [hr]⟩

theorem C82_noiseless_raises {c : Call K n} {s : KF K n} (hP : s.P = 0) (hw : c.sw = 0) (hv : c.sv = 0) :
    ∀ s', kfStep c s ≠ .ok s' := by
  intro s' h
  obtain ⟨u, -, -⟩ := kfStep_ok h
  have hp := predCov_inv c c.Q s u.regular
  have := (u.state _ _ (predicts_inv c s u.regular) hp).1
  apply this
  simp only [hP, hv, Matrix.mul_zero, Matrix.zero_mul, zero_add, Call.Q, hw]
  cases c.corr <;> simp

/-- The artificial-measurement filter leaves the model's concentrations alone. -/
theorem C82_artificial_no_feedback {c : Call K n} {noise : K} {s s' : KF K n} (h : kfArtificial c noise s = .ok s') :
    s'.cj = s.cj ∧ s'.cPrev = s.cj := by
  unfold kfArtificial at h
  cases h1 : kfUpdate c (c.sw ^ 2 • (1 : Matrix n n K)) (s.cj c.obs + c.sv * noise) s with
  | error e => rw [h1] at h; exact absurd h (by simp)
  | ok r =>
    rw [h1] at h
    have h := Except.ok.inj h
    subst h
    exact ⟨rfl, rfl⟩

/-! ### The filter after a step of the model, and C83 -/

section coupled

variable {w : Wiring} {p : Params K} {y : Hydro K} {inp : Inputs K} {wk : Work K} {cc : Conc K}

/-- What a call of the filter sees after a step of the model (`A_L_kf`, `b`, `_V_j_next`). -/
noncomputable def callOf (w : Wiring) (p : Params K) (y : Hydro K) (inp : Inputs K) (wk : Work K) (cc : Conc K)
    (obs : Fin w.M) (sw sv : K) (corr : Bool) (z : K) : Call K (Fin w.M) where
  lhs := Matrix.of fun i j => stepLhs w p y inp wk cc i j
  b := fun i => stepRhs w p y inp wk cc i
  V := fun i => y.V i
  dt := y.dt
  obs := obs
  sw := sw
  sv := sv
  corr := corr
  z := z

theorem callOf_mulVec {obs : Fin w.M} {sw sv : K} {corr : Bool} {z : K} (x : ℕ → K) (i : Fin w.M) :
    ((callOf w p y inp wk cc obs sw sv corr z).lhs *ᵥ fun j => x j) i
      = ∑ j ∈ Finset.range w.M, stepLhs w p y inp wk cc i j * x j := by
  rw [Finset.sum_range]
  rfl

theorem callOf_regular (W : Wired w) (P : Physical w p y inp) (B : WaterBalance w y inp)
    (hm : CleanMats w wk.mats) {obs : Fin w.M} {sw sv : K} {corr : Bool} {z : K} :
    (callOf w p y inp wk cc obs sw sv corr z).lhs.det ≠ 0 := by
  intro hdet
  obtain ⟨v, hv, h0⟩ := exists_mulVec_eq_zero_iff.2 hdet
  obtain ⟨⟨x, hx⟩, uniq⟩ := C75_solvable (c := cc) W P B hm
  let ext : ℕ → K := fun j => if hj : j < w.M then v ⟨j, hj⟩ else 0
  have hext : (fun j : Fin w.M => ext j) = v := by
    funext j
    simp [ext]
  have hx' : Solved w p y inp wk cc (fun j => x j + ext j) := by
    intro i hi
    have h1 := hx i hi
    have h2 := callOf_mulVec (p := p) (y := y) (inp := inp) (wk := wk) (cc := cc) (obs := obs) (sw := sw) (sv := sv)
      (corr := corr) (z := z) ext ⟨i, hi⟩
    rw [hext, h0] at h2
    simp only [Pi.zero_apply] at h2
    simp only [mul_add, Finset.sum_add_distrib, h1, ← h2, add_zero]
  apply hv
  funext j
  have := uniq x _ hx hx' j j.2
  have e : ext j = 0 := by linarith
  rw [← hext]
  exact e

/-- **C82, availability after a model step.** In a physical network with balanced water the filter completes
whenever there is process or measurement noise. -/
theorem C82_completes_after_step (W : Wired w) (P : Physical w p y inp) (B : WaterBalance w y inp)
    (hm : CleanMats w wk.mats) {obs : Fin w.M} {sw sv : K} {corr : Bool} {z : K} (hn : sw ≠ 0 ∨ sv ≠ 0)
    {s : KF K (Fin w.M)} (hP : PSD s.P) : ∃ s', kfStep (callOf w p y inp wk cc obs sw sv corr z) s = .ok s' :=
  C82_completes hP (callOf_regular W P B hm) hn

/-- **C83.** The filter's transition matrix is the response of the step to its starting superjunction
concentrations (inflows, boundary concentrations and pipe concentrations fixed) exactly when no fixed
superjunction holds water: the code leaves `V/dt` in the rows of fixed superjunctions. -/
theorem C83_transition_iff {obs : Fin w.M} {sw sv : K} {corr : Bool} {z : K} (hdt : y.dt ≠ 0)
    (hd : (callOf w p y inp wk cc obs sw sv corr z).lhs.det ≠ 0) {cbc : ℕ → K} (hbc : inp.c_bc = some cbc)
    {Φ : Matrix (Fin w.M) (Fin w.M) K}
    (hΦ : (callOf w p y inp wk cc obs sw sv corr z).lhs * Φ = diagonal fun j : Fin w.M => y.V j / y.dt) :
    (∀ (d x x' : ℕ → K), Solved w p y inp wk cc x →
      Solved w p y inp wk { cc with j := fun i => cc.j i + d i } x' →
        ∀ i : Fin w.M, (Φ *ᵥ fun j : Fin w.M => d j) i = x' i - x i) ↔
      ∀ i : Fin w.M, w.bc i = true → y.V i = 0 := by
  have rhs : ∀ (d : ℕ → K) (i : ℕ), stepRhs w p y inp wk { cc with j := fun i => cc.j i + d i } i
      = stepRhs w p y inp wk cc i + if w.bc i = true then 0 else y.V i / y.dt * d i := by
    intro d i
    show (if w.bc i = true then _ else _) = (if w.bc i = true then _ else _) + _
    by_cases hb : w.bc i = true
    · rw [if_pos hb, if_pos hb, if_pos hb, hbc]
      show cbc i = cbc i + 0
      ring
    · rw [if_neg hb, if_neg hb, if_neg hb]
      show y.V i * (cc.j i + d i) / y.dt + inp.Q_0j i * inp.c_0j i + _
        = y.V i * cc.j i / y.dt + inp.Q_0j i * inp.c_0j i + _ + _
      rw [mul_add, add_div, mul_div_right_comm (y.V i) (d i)]
      have : assembleD (stepNet w p y inp wk { cc with j := fun i => cc.j i + d i }) i
        = assembleD (stepNet w p y inp wk cc) i := rfl
      rw [this]
      ring
  have mulΦ : ∀ (d : ℕ → K) (i : Fin w.M),
      ((callOf w p y inp wk cc obs sw sv corr z).lhs *ᵥ (Φ *ᵥ fun j : Fin w.M => d j)) i = y.V i / y.dt * d i := by
    intro d i
    rw [mulVec_mulVec, hΦ, mulVec_diagonal]
  constructor
  · intro h i hb
    -- perturb the fixed superjunction alone
    have ex : ∀ r : ℕ → K, ∃ x, Network.Solves w.M (stepLhs w p y inp wk cc) r x := by
      intro r
      let v := (callOf w p y inp wk cc obs sw sv corr z).lhs⁻¹ *ᵥ fun j : Fin w.M => r j
      let ext : ℕ → K := fun j => if hj : j < w.M then v ⟨j, hj⟩ else 0
      have hext : (fun j : Fin w.M => ext j) = v := by
        funext j
        simp [ext]
      refine ⟨ext, fun i hi => ?_⟩
      rw [← callOf_mulVec (obs := obs) (sw := sw) (sv := sv) (corr := corr) (z := z) ext ⟨i, hi⟩, hext, mulVec_mulVec,
        mul_nonsing_inv _ (Ne.isUnit hd), one_mulVec]
    obtain ⟨x, hx⟩ := ex (stepRhs w p y inp wk cc)
    let d : ℕ → K := fun j => if j = i then 1 else 0
    have hx' : Solved w p y inp wk { cc with j := fun i => cc.j i + d i } x := by
      intro r hr
      rw [rhs d r]
      have e : (if w.bc r = true then 0 else y.V r / y.dt * d r) = 0 := by
        by_cases hri : r = i
        · rw [hri, if_pos hb]
        · simp [d, hri]
      rw [e, add_zero]
      exact hx r hr
    have hz : (Φ *ᵥ fun j : Fin w.M => d j) = 0 := by
      funext r
      rw [h d x x hx hx' r, sub_self]; rfl
    have := mulΦ d i
    rw [hz, mulVec_zero] at this
    simp only [Pi.zero_apply, d, if_pos, mul_one] at this
    rcases div_eq_zero_iff.1 this.symm with h | h
    · exact h
    · exact absurd h hdt
  · intro h d x x' hx hx' i
    have key : (Φ *ᵥ fun j : Fin w.M => d j) = fun j : Fin w.M => x' j - x j := by
      refine solve_unique hd (funext fun r => ?_)
      rw [mulΦ d r]
      have e := callOf_mulVec (p := p) (y := y) (inp := inp) (wk := wk) (cc := cc) (obs := obs) (sw := sw) (sv := sv)
        (corr := corr) (z := z) (fun j => x' j - x j) r
      rw [e]
      have h1 := hx r r.2
      have h2 := hx' r r.2
      rw [rhs d r] at h2
      have h3 : stepLhs w p y inp wk { cc with j := fun i => cc.j i + d i } = stepLhs w p y inp wk cc := rfl
      rw [h3] at h2
      simp only [mul_sub, Finset.sum_sub_distrib]
      rw [h1, h2]
      by_cases hb : w.bc r = true
      · rw [if_pos hb, h r hb]; ring
      · rw [if_neg hb]; ring
    rw [key]

/-- **C83, as returned.** The matrix `A_k` that `KF_Multi_WQ` returns is the response of the step to its
starting superjunction concentrations exactly when no fixed superjunction holds water. -/
theorem C83_returned_iff {obs : Fin w.M} {sw sv : K} {corr : Bool} {z : K} (hdt : y.dt ≠ 0)
    {cbc : ℕ → K} (hbc : inp.c_bc = some cbc) {s s' : KF K (Fin w.M)} {A : Matrix (Fin w.M) (Fin w.M) K}
    {B : Fin w.M → K} (hr : kfMulti (callOf w p y inp wk cc obs sw sv corr z) s = .ok (A, B, s')) :
    (∀ (d x x' : ℕ → K), Solved w p y inp wk cc x →
      Solved w p y inp wk { cc with j := fun i => cc.j i + d i } x' →
        ∀ i : Fin w.M, (A *ᵥ fun j : Fin w.M => d j) i = x' i - x i) ↔
      ∀ i : Fin w.M, w.bc i = true → y.V i = 0 := by
  unfold kfMulti npInv at hr
  by_cases hd : (callOf w p y inp wk cc obs sw sv corr z).lhs.det = 0
  · simp [hd] at hr
  · simp only [hd, if_false] at hr
    have hA : _ = A := congrArg Prod.fst (Except.ok.inj hr)
    refine C83_transition_iff hdt hd hbc ?_
    rw [← hA]
    show _ * (_ * _) = _
    rw [← Matrix.mul_assoc, mul_nonsing_inv _ (Ne.isUnit hd), Matrix.one_mul]
    rfl

end coupled

/-! ### Instances -/

/-- **C83 is violated** in the network of `Ex`, whose fixed superjunction holds water. -/
theorem C83_violated : ∃ Φ : Matrix (Fin Ex.w.M) (Fin Ex.w.M) ℚ,
    (callOf Ex.w Ex.p Ex.y Ex.inp Ex.wk Ex.c ⟨0, by simp [Ex.w]⟩ 1 1 false 3).lhs * Φ
      = (diagonal fun j : Fin Ex.w.M => Ex.y.V j / Ex.y.dt) ∧
    ∃ d x x' : ℕ → ℚ, Solved Ex.w Ex.p Ex.y Ex.inp Ex.wk Ex.c x ∧
      Solved Ex.w Ex.p Ex.y Ex.inp Ex.wk { Ex.c with j := fun i => Ex.c.j i + d i } x' ∧
      ∃ i : Fin Ex.w.M, (Φ *ᵥ fun j : Fin Ex.w.M => d j) i ≠ x' i - x i := by
  have hd := callOf_regular (cc := Ex.c) Ex.wired Ex.physical Ex.balance Ex.clean (obs := ⟨0, by simp [Ex.w]⟩)
    (sw := 1) (sv := 1) (corr := false) (z := 3)
  have hΦ : (callOf Ex.w Ex.p Ex.y Ex.inp Ex.wk Ex.c ⟨0, by simp [Ex.w]⟩ 1 1 false 3).lhs *
      ((callOf Ex.w Ex.p Ex.y Ex.inp Ex.wk Ex.c ⟨0, by simp [Ex.w]⟩ 1 1 false 3).lhs⁻¹ *
        diagonal fun j : Fin Ex.w.M => Ex.y.V j / Ex.y.dt) = diagonal fun j : Fin Ex.w.M => Ex.y.V j / Ex.y.dt := by
    rw [← Matrix.mul_assoc, mul_nonsing_inv _ (Ne.isUnit hd), Matrix.one_mul]
  refine ⟨_, hΦ, ?_⟩
  have key := (C83_transition_iff (by simp [Ex.y]) hd (cbc := fun _ => 2) rfl hΦ).not.2 (by
    intro h
    have := h ⟨1, by simp [Ex.w]⟩ (by simp [Ex.w])
    simp [Ex.y] at this)
  push Not at key
  obtain ⟨d, x, x', h1, h2, i, h3⟩ := key
  exact ⟨d, x, x', h1, h2, i, h3⟩

/-- A free superjunction next to a fixed one. -/
def exCall (corr : Bool) : Call ℚ (Fin 2) where
  lhs := !![2, -1; 0, 1]
  b := ![1, 5]
  V := ![1, 1]
  dt := 1
  obs := 0
  sw := 1
  sv := 1
  corr := corr
  z := 7

theorem exCall_det (corr : Bool) : (exCall corr).lhs.det ≠ 0 := by
  simp [exCall, Matrix.det_fin_two]

/-- Filter calls complete from the constructor on, and the first one does not predict with the model. -/
example : (∃ s', kfStep (exCall true) (kfInit (fun _ => 1) (fun _ => 1)) = .ok s') ∧
    ∀ x y, Predicts (exCall true) (kfInit (fun _ => 1) (fun _ => 1)) x → (exCall true).lhs *ᵥ y = (exCall true).b →
      x ≠ y := by
  refine ⟨C82_completes psd_zero (exCall_det _) (Or.inl (by simp [exCall])), fun x y hx hy h => ?_⟩
  have := (C80_first_call_iff (exCall_det _) (by simp [exCall]) hx hy).1 h 0
  simp [exCall] at this

/-- The fixed superjunction with prescribed value 5 is moved to 7. -/
theorem C81_boundary_moved : ∃ s s' : KF ℚ (Fin 2), PSD s.P ∧ (exCall true).lhs 1 = Pi.single 1 1 ∧
    (exCall true).b 1 = 5 ∧ kfStep (exCall true) s = .ok s' ∧ s'.cj 1 = 7 := by
  obtain ⟨s', h⟩ := C82_completes (c := exCall true) (s := ⟨0, 0, 0, 0⟩) psd_zero (exCall_det _)
    (Or.inl (by simp [exCall]))
  have hx : Predicts (exCall true) ⟨0, 0, 0, 0⟩ ![3, 5] := by
    intro j
    fin_cases j <;> simp [exCall, mulVec, dotProduct, Fin.sum_univ_two] <;> norm_num
  refine ⟨_, s', psd_zero, ?_, rfl, h, ?_⟩
  · funext j
    fin_cases j <;> simp [exCall]
  · rw [C81_correlated_moves_all rfl rfl hx h]
    simp only [exCall]
    norm_num

end Pipedream.Quality
