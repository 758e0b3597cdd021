import Verif.StabilityProps
import Mathlib.Analysis.SpecialFunctions.Pow.Continuity

/-!
# Limits of the coefficients, sweeps and solutions of a step

Helper lemmas for C178: along any filter, convergence of the data of a step carries over to everything computed from them.
-/

namespace Pipedream.Step

open Filter Topology
open Pipedream.Sweep Pipedream.Link Pipedream.Superlink Pipedream.Control Pipedream.Network

variable {ι : Type*} {l : Filter ι}

theorem safeDivide_to {x y : ι → ℝ} {x0 y0 : ℝ} (hx : Tendsto x l (𝓝 x0)) (hy : Tendsto y l (𝓝 y0)) (h0 : y0 ≠ 0) :
    Tendsto (fun t => safeDivide (x t) (y t)) l (𝓝 (safeDivide x0 y0)) := by
  simp only [safeDivide_eq]
  exact hx.div hy h0

/-! ### Sweeps of one superlink -/

structure CoefTo (l : Filter ι) (cN : ι → Coef ℝ) (co : Coef ℝ) (n : ℕ) : Prop where
  a : ∀ j, j < n → Tendsto (fun t => (cN t).a j) l (𝓝 (co.a j))
  b : ∀ j, j < n → Tendsto (fun t => (cN t).b j) l (𝓝 (co.b j))
  c : ∀ j, j < n → Tendsto (fun t => (cN t).c j) l (𝓝 (co.c j))
  P : ∀ j, j < n → Tendsto (fun t => (cN t).P j) l (𝓝 (co.P j))
  A : ∀ j, j < n → Tendsto (fun t => (cN t).A j) l (𝓝 (co.A j))
  E : ∀ j, j ≤ n → Tendsto (fun t => (cN t).E j) l (𝓝 (co.E j))
  D : ∀ j, j ≤ n → Tendsto (fun t => (cN t).D j) l (𝓝 (co.D j))

section sweeps

variable {g : ℝ} {cN : ι → Coef ℝ} {c : Coef ℝ} {n : ℕ}

theorem fwd_to {TN UN VN WN : ι → ℕ → ℝ} {T U V W : ℕ → ℝ} (hc : CoefTo l cN c n) (ph : Physical g c n)
    (RN : ∀ t, FwdRel g (cN t) n (TN t) (UN t) (VN t) (WN t)) (R : FwdRel g c n T U V W) :
    ∀ j, j < n → Tendsto (fun t => TN t j) l (𝓝 (T j)) ∧ Tendsto (fun t => UN t j) l (𝓝 (U j)) ∧
      Tendsto (fun t => VN t j) l (𝓝 (V j)) ∧ Tendsto (fun t => WN t j) l (𝓝 (W j)) := by
  have piv := physical_fwdPivots ph R
  have sg := fwd_signs ph R
  intro j
  induction j with
  | zero =>
    intro hj
    have hT : Tendsto (fun t => TN t 0) l (𝓝 (T 0)) := by
      rw [funext fun t => (RN t).T0, R.T0]
      exact ((hc.a 0 hj).add (hc.b 0 hj)).add (hc.c 0 hj)
    have T0 := (sg 0 hj).2.1.ne'
    refine ⟨hT, ?_, ?_, ?_⟩
    · rw [funext fun t => (RN t).U0, R.U0]
      exact safeDivide_to (((hc.E 1 (by omega)).mul (hc.c 0 hj)).sub ((hc.A 0 hj).const_mul g)) hT T0
    · rw [funext fun t => (RN t).V0, R.V0]
      exact safeDivide_to (((hc.P 0 hj).sub ((hc.D 1 (by omega)).mul (hc.c 0 hj))).add
        ((hc.D 0 (by omega)).mul (hc.a 0 hj))) hT T0
    · rw [funext fun t => (RN t).W0, R.W0]
      exact safeDivide_to (((hc.A 0 hj).const_mul g).sub ((hc.E 0 (by omega)).mul (hc.a 0 hj))) hT T0
  | succ j ih =>
    intro hj
    obtain ⟨_, uU, uV, uW⟩ := ih (by omega)
    have T0 := (sg (j + 1) hj).2.1.ne'
    have d0 : U j - c.E (j + 1) ≠ 0 := by
      have := (sg j (by omega)).2.2.1
      have := ph.E_nonneg (j + 1) (by omega)
      exact ne_of_lt (by linarith)
    have hE := hc.E (j + 1) (by omega)
    have hD := hc.D (j + 1) (by omega)
    have hd := uU.sub hE
    have hT : Tendsto (fun t => TN t (j + 1)) l (𝓝 (T (j + 1))) := by
      rw [funext fun t => (RN t).Ts j hj, R.Ts j hj]
      exact (((hc.a _ hj).add (hc.b _ hj)).add (hc.c _ hj)).sub
        (safeDivide_to (((hc.A _ hj).const_mul g).sub (hE.mul (hc.a _ hj))) hd d0)
    refine ⟨hT, ?_, ?_, ?_⟩
    · rw [funext fun t => (RN t).Us j hj, R.Us j hj]
      exact safeDivide_to (((hc.E (j + 2) (by omega)).mul (hc.c _ hj)).sub ((hc.A _ hj).const_mul g)) hT T0
    · rw [funext fun t => (RN t).Vs j hj, R.Vs j hj]
      exact safeDivide_to ((((hc.P _ hj).add ((hc.a _ hj).mul hD)).sub ((hc.D (j + 2) (by omega)).mul (hc.c _ hj))).sub
        (((((hc.A _ hj).const_mul g).sub (hE.mul (hc.a _ hj))).mul (uV.add hD)).div hd d0)) hT T0
    · rw [funext fun t => (RN t).Ws j hj, R.Ws j hj]
      exact safeDivide_to (((((hc.A _ hj).const_mul g).sub (hE.mul (hc.a _ hj))).neg).mul uW) (hd.mul hT)
        (mul_ne_zero d0 T0)

theorem bwd_to {ON XN YN ZN : ι → ℕ → ℝ} {O X Y Z : ℕ → ℝ} (hc : CoefTo l cN c n) (ph : Physical g c n)
    (RN : ∀ t, BwdRel g (cN t) n (ON t) (XN t) (YN t) (ZN t)) (R : BwdRel g c n O X Y Z) :
    ∀ j, j < n → Tendsto (fun t => ON t j) l (𝓝 (O j)) ∧ Tendsto (fun t => XN t j) l (𝓝 (X j)) ∧
      Tendsto (fun t => YN t j) l (𝓝 (Y j)) ∧ Tendsto (fun t => ZN t j) l (𝓝 (Z j)) := by
  have sg := bwd_signs ph R
  suffices h : ∀ k, ∀ j, j + k + 1 = n → Tendsto (fun t => ON t j) l (𝓝 (O j)) ∧ Tendsto (fun t => XN t j) l (𝓝 (X j)) ∧
      Tendsto (fun t => YN t j) l (𝓝 (Y j)) ∧ Tendsto (fun t => ZN t j) l (𝓝 (Z j)) by
    intro j hj; exact h (n - 1 - j) j (by omega)
  intro k
  induction k with
  | zero =>
    intro j hj
    have hj' : j < n := by omega
    obtain rfl : j = n - 1 := by omega
    have hO : Tendsto (fun t => ON t (n - 1)) l (𝓝 (O (n - 1))) := by
      rw [funext fun t => (RN t).On, R.On]
      exact ((hc.a _ hj').add (hc.b _ hj')).add (hc.c _ hj')
    have O0 := (sg _ hj').2.1.ne'
    refine ⟨hO, ?_, ?_, ?_⟩
    · rw [funext fun t => (RN t).Xn, R.Xn]
      exact safeDivide_to (((hc.A _ hj').const_mul g).sub ((hc.E (n - 1) (by omega)).mul (hc.a _ hj'))) hO O0
    · rw [funext fun t => (RN t).Yn, R.Yn]
      exact safeDivide_to (((hc.P _ hj').add ((hc.D (n - 1) (by omega)).mul (hc.a _ hj'))).sub
        ((hc.D n le_rfl).mul (hc.c _ hj'))) hO O0
    · rw [funext fun t => (RN t).Zn, R.Zn]
      exact safeDivide_to (((hc.E n le_rfl).mul (hc.c _ hj')).sub ((hc.A _ hj').const_mul g)) hO O0
  | succ k ih =>
    intro j hj
    have hj' : j < n := by omega
    have hj1 : j + 1 < n := by omega
    obtain ⟨_, uX, uY, uZ⟩ := ih (j + 1) (by omega)
    have O0 := (sg j hj').2.1.ne'
    have d0 : X (j + 1) + c.E (j + 1) ≠ 0 := by
      have := (sg (j + 1) hj1).2.2.1
      have := ph.E_nonneg (j + 1) (by omega)
      exact ne_of_gt (by linarith)
    have hE := hc.E (j + 1) (by omega)
    have hD := hc.D (j + 1) (by omega)
    have hd := uX.add hE
    have hO : Tendsto (fun t => ON t j) l (𝓝 (O j)) := by
      rw [funext fun t => (RN t).Os j (by omega) hj1, R.Os j (by omega) hj1]
      exact (((hc.a _ hj').add (hc.b _ hj')).add (hc.c _ hj')).add
        (safeDivide_to (((hc.A _ hj').const_mul g).sub (hE.mul (hc.c _ hj'))) hd d0)
    refine ⟨hO, ?_, ?_, ?_⟩
    · rw [funext fun t => (RN t).Xs j (by omega) hj1, R.Xs j (by omega) hj1]
      exact safeDivide_to (((hc.A _ hj').const_mul g).sub ((hc.E j (by omega)).mul (hc.a _ hj'))) hO O0
    · rw [funext fun t => (RN t).Ys j (by omega) hj1, R.Ys j (by omega) hj1]
      exact safeDivide_to ((((hc.P _ hj').add ((hc.a _ hj').mul (hc.D j (by omega)))).sub (hD.mul (hc.c _ hj'))).sub
        (((((hc.A _ hj').const_mul g).sub (hE.mul (hc.c _ hj'))).mul (hD.sub uY)).div hd d0)) hO O0
    · rw [funext fun t => (RN t).Zs j (by omega) hj1, R.Zs j (by omega) hj1]
      exact safeDivide_to ((((hc.A _ hj').const_mul g).sub (hE.mul (hc.c _ hj'))).mul uZ) (hd.mul hO) (mul_ne_zero d0 O0)

theorem clipDepth_eq (mn mx x : ℝ) : clipDepth mn mx x = min (max x mn) mx := by
  unfold clipDepth
  simp only
  split_ifs with h1 h2 h2
  · rw [max_eq_right h1.le, min_eq_right h2.le]
  · rw [max_eq_right h1.le, min_eq_left (not_lt.mp h2)]
  · rw [max_eq_left (not_lt.mp h1), min_eq_right h2.le]
  · rw [max_eq_left (not_lt.mp h1), min_eq_left (not_lt.mp h2)]

theorem clipDepth_to {mn mx : ℝ} {x : ι → ℝ} {x0 : ℝ} (h : Tendsto x l (𝓝 x0)) :
    Tendsto (fun t => clipDepth mn mx (x t)) l (𝓝 (clipDepth mn mx x0)) := by
  simp only [clipDepth_eq]
  exact (h.max tendsto_const_nhds).min tendsto_const_nhds

/-- Depths and flows inside a superlink. -/
theorem int_to {UN VN WN XN YN ZN hN QN : ι → ℕ → ℝ} {U V W X Y Z h Q : ℕ → ℝ} {mn mx : ℝ} {huN hdN : ι → ℝ} {hu hd : ℝ}
    {back : Bool} (n1 : 1 ≤ n)
    (cU : ∀ j, j < n → Tendsto (fun t => UN t j) l (𝓝 (U j))) (cV : ∀ j, j < n → Tendsto (fun t => VN t j) l (𝓝 (V j)))
    (cW : ∀ j, j < n → Tendsto (fun t => WN t j) l (𝓝 (W j))) (cX : ∀ j, j < n → Tendsto (fun t => XN t j) l (𝓝 (X j)))
    (cY : ∀ j, j < n → Tendsto (fun t => YN t j) l (𝓝 (Y j))) (cZ : ∀ j, j < n → Tendsto (fun t => ZN t j) l (𝓝 (Z j)))
    (X0 : ∀ j, j < n → X j ≠ 0) (cu : Tendsto huN l (𝓝 hu)) (cd : Tendsto hdN l (𝓝 hd))
    (RN : ∀ t, IntRel (UN t) (VN t) (WN t) (XN t) (YN t) (ZN t) mn mx (huN t) (hdN t) n back (hN t) (QN t))
    (R : IntRel U V W X Y Z mn mx hu hd n back h Q) :
    (∀ j, j ≤ n → Tendsto (fun t => hN t j) l (𝓝 (h j))) ∧ ∀ j, j < n → Tendsto (fun t => QN t j) l (𝓝 (Q j)) := by
  have hn : Tendsto (fun t => hN t n) l (𝓝 (h n)) := by
    rw [funext fun t => (RN t).hn, R.hn]; exact cd
  have h0 : Tendsto (fun t => hN t 0) l (𝓝 (h 0)) := by
    rw [funext fun t => (RN t).h0, R.h0]; exact cu
  have key : ∀ k, ∀ j, j + k = n → 1 ≤ j → Tendsto (fun t => hN t j) l (𝓝 (h j)) ∧
      (j < n → Tendsto (fun t => QN t j) l (𝓝 (Q j))) := by
    intro k
    induction k with
    | zero =>
      intro j hj _
      obtain rfl : j = n := by omega
      exact ⟨hn, fun h => absurd h (lt_irrefl _)⟩
    | succ k ih =>
      intro j hj j1
      have hjn : j < n := by omega
      have next := (ih (j + 1) (by omega) (by omega)).1
      have cQ : Tendsto (fun t => QN t j) l (𝓝 (Q j)) := by
        rw [funext fun t => (RN t).Qs j j1 j1 hjn, R.Qs j j1 j1 hjn]
        exact (((cU j hjn).mul next).add (cV j hjn)).add ((cW j hjn).mul cu)
      refine ⟨?_, fun _ => cQ⟩
      rw [funext fun t => (RN t).hs j j1 j1 hjn, R.hs j j1 j1 hjn]
      exact clipDepth_to (safeDivide_to ((cQ.sub (cY j hjn)).sub ((cZ j hjn).mul cd)) (cX j hjn) (X0 j hjn))
  have hh : ∀ j, j ≤ n → Tendsto (fun t => hN t j) l (𝓝 (h j)) := by
    intro j hj
    rcases Nat.eq_zero_or_pos j with z | z
    · subst z; exact h0
    · exact (key (n - j) j (by omega) z).1
  refine ⟨hh, fun j hj => ?_⟩
  rcases Nat.eq_zero_or_pos j with z | z
  · subst z
    rw [funext fun t => (RN t).Q0, R.Q0]
    cases back
    · simp only [Bool.false_eq_true, if_false]
      exact (((cU 0 hj).mul (hh 1 n1)).add (cV 0 hj)).add ((cW 0 hj).mul cu)
    · simp only [if_true]
      exact (((cX 0 hj).mul cu).add (cY 0 hj)).add ((cZ 0 hj).mul cd)
  · exact (key (n - j) j (by omega) z).2 hj

end sweeps

/-! ### Friction -/

theorem friction_to {QN AN RN tN : ι → ℝ} {Q A R t dx n g : ℝ} {method : ℤ} (hA : 0 < A) (hR : 0 < R) (hn : 0 < n)
    (AN0 : ∀ a, 0 < AN a) (RN0 : ∀ a, 0 < RN a)
    (cQ : Tendsto QN l (𝓝 Q)) (cA : Tendsto AN l (𝓝 A)) (cR : Tendsto RN l (𝓝 R))
    (fN : ∀ a, frictionSlope (QN a) dx (AN a) (RN a) n method g = .ok (tN a))
    (f : frictionSlope Q dx A R n method g = .ok t) : Tendsto tN l (𝓝 t) := by
  by_cases m0 : method = 0
  · have e : ∀ {Q A R t : ℝ}, 0 < A → 0 < R → frictionSlope Q dx A R n method g = .ok t →
        t = g * n ^ 2 * |Q| * dx / A / R ^ (4 / 3 : ℝ) := by
      intro Q A R t hA hR h
      have r : R ^ (4 / 3 : ℝ) ≠ 0 := (Real.rpow_pos_of_pos hR _).ne'
      simp only [frictionSlope, if_pos hA, if_pos m0, pyDiv, if_neg hA.ne', if_neg r] at h
      exact (Except.ok.inj h).symm
    rw [funext fun a => e (AN0 a) (RN0 a) (fN a), e hA hR f]
    exact ((((cQ.abs).const_mul _).mul_const _).div cA hA.ne').div
      (cR.rpow tendsto_const_nhds (Or.inl hR.ne')) (Real.rpow_pos_of_pos hR _).ne'
  by_cases m1 : method = 1
  · have nn : n ^ (1.85 : ℝ) ≠ 0 := (Real.rpow_pos_of_pos hn _).ne'
    have e : ∀ {Q A R t : ℝ}, 0 < A → 0 < R → frictionSlope Q dx A R n method g = .ok t →
        t = 1.354 * g * |Q| ^ (0.85 : ℝ) * dx / A ^ (0.85 : ℝ) / n ^ (1.85 : ℝ) / R ^ (1.1655 : ℝ) := by
      intro Q A R t hA hR h
      have a : A ^ (0.85 : ℝ) ≠ 0 := (Real.rpow_pos_of_pos hA _).ne'
      have r : R ^ (1.1655 : ℝ) ≠ 0 := (Real.rpow_pos_of_pos hR _).ne'
      simp only [frictionSlope, if_pos hA, if_neg m0, if_pos m1, pyDiv, if_neg a, if_neg nn, if_neg r] at h
      exact (Except.ok.inj h).symm
    rw [funext fun a => e (AN0 a) (RN0 a) (fN a), e hA hR f]
    exact ((((((cQ.abs).rpow tendsto_const_nhds (Or.inr (by norm_num))).const_mul _).mul_const _).div
      (cA.rpow tendsto_const_nhds (Or.inl hA.ne')) (Real.rpow_pos_of_pos hA _).ne').div_const _).div
      (cR.rpow tendsto_const_nhds (Or.inl hR.ne')) (Real.rpow_pos_of_pos hR _).ne'
  by_cases m2 : method = 2
  · have e : ∀ {Q A R t : ℝ}, 0 < A → 0 < R → frictionSlope Q dx A R n method g = .ok t →
        (|Q| / A * 4 * R / nuVisc) ^ (0.9 : ℝ) ≠ 0 ∧
        (Real.logb 10 (n / (3.7 * 4 * R) + 5.74 / (|Q| / A * 4 * R / nuVisc) ^ (0.9 : ℝ))) ^ 2 ≠ 0 ∧
        t = 0.01274 * g * (0.25 / (Real.logb 10 (n / (3.7 * 4 * R) + 5.74 / (|Q| / A * 4 * R / nuVisc) ^ (0.9 : ℝ))) ^ 2)
          * |Q| * dx / (A * R) := by
      intro Q A R t hA hR h
      have r : (3.7 * 4 * R : ℝ) ≠ 0 := by positivity
      have ar : A * R ≠ 0 := (mul_pos hA hR).ne'
      simp only [frictionSlope, if_pos hA, if_neg m0, if_neg m1, if_pos m2, pyDiv, if_neg hA.ne', if_neg r, if_neg ar] at h
      by_cases z1 : (|Q| / A * 4 * R / nuVisc) ^ (0.9 : ℝ) = 0
      · simp [Bind.bind, Except.bind, z1] at h
      by_cases z2 : (Real.logb 10 (n / (3.7 * 4 * R) + 5.74 / (|Q| / A * 4 * R / nuVisc) ^ (0.9 : ℝ))) ^ 2 = 0
      · simp only [Bind.bind, Except.bind, if_neg z1, if_pos z2] at h
        cases h
      · simp only [Bind.bind, Except.bind, if_neg z1, if_neg z2] at h
        exact ⟨z1, z2, (Except.ok.inj h).symm⟩
    obtain ⟨z1, z2, et⟩ := e hA hR f
    rw [funext fun a => (e (AN0 a) (RN0 a) (fN a)).2.2, et]
    have nu0 : (0 : ℝ) < nuVisc := by norm_num [nuVisc]
    have re : Tendsto (fun a => (|QN a| / AN a * 4 * RN a / nuVisc) ^ (0.9 : ℝ)) l
        (𝓝 ((|Q| / A * 4 * R / nuVisc) ^ (0.9 : ℝ))) :=
      (((((cQ.abs).div cA hA.ne').mul_const 4).mul cR).div_const nuVisc).rpow tendsto_const_nhds (Or.inr (by norm_num))
    have arg0 : n / (3.7 * 4 * R) + 5.74 / (|Q| / A * 4 * R / nuVisc) ^ (0.9 : ℝ) ≠ 0 := by
      have : 0 < n / (3.7 * 4 * R) := by positivity
      have : 0 ≤ 5.74 / (|Q| / A * 4 * R / nuVisc) ^ (0.9 : ℝ) := by positivity
      linarith
    have arg : Tendsto (fun a => n / (3.7 * 4 * RN a) + 5.74 / (|QN a| / AN a * 4 * RN a / nuVisc) ^ (0.9 : ℝ)) l
        (𝓝 (n / (3.7 * 4 * R) + 5.74 / (|Q| / A * 4 * R / nuVisc) ^ (0.9 : ℝ))) :=
      (tendsto_const_nhds.div (cR.const_mul _) (by positivity)).add (tendsto_const_nhds.div re z1)
    have lg : Tendsto (fun a => Real.logb 10 (n / (3.7 * 4 * RN a) + 5.74 / (|QN a| / AN a * 4 * RN a / nuVisc) ^ (0.9 : ℝ))) l
        (𝓝 (Real.logb 10 (n / (3.7 * 4 * R) + 5.74 / (|Q| / A * 4 * R / nuVisc) ^ (0.9 : ℝ)))) := by
      simp only [Real.logb]
      exact (arg.log arg0).div_const _
    exact (((((tendsto_const_nhds.div (lg.pow 2) z2).const_mul _).mul cQ.abs).mul_const _)).div (cA.mul cR)
      (mul_pos hA hR).ne'
  · simp [frictionSlope, if_pos hA, m0, m1, m2] at f

end Pipedream.Step
