import Verif.ScaleModel
import Verif.StepProps

/-!
# The stages of a step under a change of scale

Helper lemmas for `ScaleProps`: every stage of a step maps scaled data to scaled results.
-/

namespace Pipedream.Step

open Pipedream.Sweep Pipedream.Link Pipedream.Superlink Pipedream.Control Pipedream.Network
open Pipedream.Geometry Pipedream.Interp

namespace Scale

variable (u : Scale)

theorem arr_apply (c : ℝ) (f : ℕ → ℝ) (i : ℕ) : arr c f i = c * f i := rfl

theorem L_ne : u.L ≠ 0 := u.hL.ne'
theorem w_ne : u.w ≠ 0 := u.hw.ne'
theorem con_pos : 0 < u.con := mul_pos (pow_pos u.hL _) u.hw
theorem dis_pos : 0 < u.dis := mul_pos (pow_pos u.hL _) u.hw
theorem vel_pos : 0 < u.vel := mul_pos u.hL u.hw
theorem acc_pos : 0 < u.acc := mul_pos u.hL (pow_pos u.hw _)
theorem con_ne : u.con ≠ 0 := u.con_pos.ne'
theorem dis_ne : u.dis ≠ 0 := u.dis_pos.ne'
theorem vel_ne : u.vel ≠ 0 := u.vel_pos.ne'

theorem dis_eq : u.dis = u.L * u.con := by unfold dis con; ring

/-- A quotient whose numerator and denominator are scaled. -/
theorem sdiv {n n' d d' a b c : ℝ} (hn : n' = a * n) (hd : d' = b * d) (hb : b ≠ 0) (hab : a = c * b) :
    safeDivide n' d' = c * safeDivide n d := by
  rw [safeDivide_eq, safeDivide_eq, hn, hd, mul_div_mul_comm, hab, mul_div_assoc, div_self hb, mul_one]

theorem mdiv {n n' d d' a b c : ℝ} (hn : n' = a * n) (hd : d' = b * d) (hb : b ≠ 0) (hab : a = c * b) :
    n' / d' = c * (n / d) := by
  rw [hn, hd, mul_div_mul_comm, hab, mul_div_assoc, div_self hb, mul_one]

theorem arr_upd (c : ℝ) (f : ℕ → ℝ) (i : ℕ) (v : ℝ) : arr c (upd f i v) = upd (arr c f) i (c * v) := by
  funext j; simp only [arr, upd]; split_ifs <;> rfl

/-- A loop whose body commutes with a map. -/
theorem forRange_map {σ τ : Type*} (F : σ → τ) (n : ℕ) (body : ℕ → σ → σ) (body' : ℕ → τ → τ) (s : σ)
    (h : ∀ k s, body' k (F s) = F (body k s)) : forRange n body' (F s) = F (forRange n body s) := by
  induction n with
  | zero => rfl
  | succ n ih => rw [forRange_succ, forRange_succ, ih, h]

/-! ### Sweeps -/

variable (g : ℝ)

theorem U_1k_sc (E c A T : ℝ) :
    U_1k (u.con * E) (u.vel * c) (u.L ^ 2 * A) (u.vel * T) (u.acc * g) = u.con * U_1k E c A T g :=
  sdiv (a := u.con * u.vel) (by unfold con vel acc; ring) rfl u.vel_ne rfl

theorem V_1k_sc (P D2 c T a D1 : ℝ) :
    V_1k (u.L ^ 4 * u.w ^ 2 * P) (u.dis * D2) (u.vel * c) (u.vel * T) (u.vel * a) (u.dis * D1) =
      u.dis * V_1k P D2 c T a D1 :=
  sdiv (a := u.dis * u.vel) (by unfold dis vel; ring) rfl u.vel_ne rfl

theorem W_1k_sc (A T a E : ℝ) :
    W_1k (u.L ^ 2 * A) (u.vel * T) (u.vel * a) (u.con * E) (u.acc * g) = u.con * W_1k A T a E g :=
  sdiv (a := u.con * u.vel) (by unfold con vel acc; ring) rfl u.vel_ne rfl

theorem T_1k_sc (a b c : ℝ) : T_1k (u.vel * a) (u.vel * b) (u.vel * c) = u.vel * T_1k a b c := by
  unfold T_1k; ring

theorem inner_sc {t3 t4 t5 t3' t4' t5' : ℝ} (h3 : t3' = u.con * u.vel * t3) (h4 : t4' = u.dis * t4)
    (h5 : t5' = u.con * t5) : t3' * t4' / t5' = u.dis * u.vel * (t3 * t4 / t5) :=
  mdiv (a := u.dis * u.vel * u.con) (by rw [h3, h4]; ring) h5 u.con_ne rfl

theorem V_Ik_sc (P a D D1 c A E V U T : ℝ) :
    V_Ik (u.L ^ 4 * u.w ^ 2 * P) (u.vel * a) (u.dis * D) (u.dis * D1) (u.vel * c) (u.L ^ 2 * A) (u.con * E)
      (u.dis * V) (u.con * U) (u.vel * T) (u.acc * g) = u.dis * V_Ik P a D D1 c A E V U T g := by
  refine sdiv (a := u.dis * u.vel) ?_ rfl u.vel_ne rfl
  rw [u.inner_sc (t3 := g * A - E * a) (t4 := V + D) (t5 := U - E) (by unfold con vel acc; ring) (by ring) (by ring)]
  unfold dis vel; ring

theorem W_Ik_sc (A E a W U T : ℝ) :
    W_Ik (u.L ^ 2 * A) (u.con * E) (u.vel * a) (u.con * W) (u.con * U) (u.vel * T) (u.acc * g) =
      u.con * W_Ik A E a W U T g :=
  sdiv (a := u.con * (u.con * u.vel)) (b := u.con * u.vel) (by unfold con vel acc; ring) (by ring)
    (mul_ne_zero u.con_ne u.vel_ne) rfl

theorem T_ik_sc (a b c A E U : ℝ) :
    T_ik (u.vel * a) (u.vel * b) (u.vel * c) (u.L ^ 2 * A) (u.con * E) (u.con * U) (u.acc * g) =
      u.vel * T_ik a b c A E U g := by
  unfold T_ik
  simp only
  rw [sdiv (a := u.vel * u.con) (b := u.con) (c := u.vel) (n := g * A - E * a) (d := U - E)
    (by unfold con vel acc; ring) (by ring) u.con_ne rfl]
  ring

theorem O_ik_sc (a b c A E X : ℝ) :
    O_ik (u.vel * a) (u.vel * b) (u.vel * c) (u.L ^ 2 * A) (u.con * E) (u.con * X) (u.acc * g) =
      u.vel * O_ik a b c A E X g := by
  unfold O_ik
  simp only
  rw [sdiv (a := u.vel * u.con) (b := u.con) (c := u.vel) (n := g * A - E * c) (d := X + E)
    (by unfold con vel acc; ring) (by ring) u.con_ne rfl]
  ring

theorem Y_Ik_sc (P a D D1 c A E Y X O : ℝ) :
    Y_Ik (u.L ^ 4 * u.w ^ 2 * P) (u.vel * a) (u.dis * D) (u.dis * D1) (u.vel * c) (u.L ^ 2 * A) (u.con * E)
      (u.dis * Y) (u.con * X) (u.vel * O) (u.acc * g) = u.dis * Y_Ik P a D D1 c A E Y X O g := by
  refine sdiv (a := u.dis * u.vel) ?_ rfl u.vel_ne rfl
  rw [u.inner_sc (t3 := g * A - E * c) (t4 := D1 - Y) (t5 := X + E) (by unfold con vel acc; ring) (by ring) (by ring)]
  unfold dis vel; ring

theorem Z_Ik_sc (A E c Z X O : ℝ) :
    Z_Ik (u.L ^ 2 * A) (u.con * E) (u.vel * c) (u.con * Z) (u.con * X) (u.vel * O) (u.acc * g) =
      u.con * Z_Ik A E c Z X O g :=
  sdiv (a := u.con * (u.con * u.vel)) (b := u.con * u.vel) (by unfold con vel acc; ring) (by ring)
    (mul_ne_zero u.con_ne u.vel_ne) rfl

theorem Y_Nk_sc (P D a O c D1 : ℝ) :
    Y_Nk (u.L ^ 4 * u.w ^ 2 * P) (u.dis * D) (u.vel * a) (u.vel * O) (u.vel * c) (u.dis * D1) =
      u.dis * Y_Nk P D a O c D1 :=
  sdiv (a := u.dis * u.vel) (by unfold dis vel; ring) rfl u.vel_ne rfl

theorem X_Nk_sc (A E a O : ℝ) :
    X_Nk (u.L ^ 2 * A) (u.con * E) (u.vel * a) (u.vel * O) (u.acc * g) = u.con * X_Nk A E a O g :=
  sdiv (a := u.con * u.vel) (by unfold con vel acc; ring) rfl u.vel_ne rfl

theorem Z_Nk_sc (A O c E : ℝ) :
    Z_Nk (u.L ^ 2 * A) (u.vel * O) (u.vel * c) (u.con * E) (u.acc * g) = u.con * Z_Nk A O c E g :=
  sdiv (a := u.con * u.vel) (by unfold con vel acc; ring) rfl u.vel_ne rfl

theorem fwdFirst_sc (co : Coef ℝ) (I1 i1 : ℕ) (s : Fwd ℝ) :
    fwdFirst (u.acc * g) (u.coef co) I1 i1 (u.fwd s) = u.fwd (fwdFirst g co I1 i1 s) := by
  simp only [fwdFirst, fwd, coef, arr_apply, T_1k_sc, upd_same, arr_upd]
  congr 2
  · exact u.U_1k_sc ..
  · exact u.V_1k_sc ..
  · exact u.W_1k_sc ..

theorem fwdNext_sc (co : Coef ℝ) (I1 i1 i : ℕ) (s : Fwd ℝ) :
    fwdNext (u.acc * g) (u.coef co) I1 i1 i (u.fwd s) = u.fwd (fwdNext g co I1 i1 i s) := by
  have hU : ∀ (I : ℕ) (E c A T : ℝ), upd (arr u.con s.U) I (U_Ik (u.con * E) (u.vel * c) (u.L ^ 2 * A) (u.vel * T)
      (u.acc * g)) = arr u.con (upd s.U I (U_Ik E c A T g)) := fun I E c A T => by
    rw [arr_upd]; congr 1; exact u.U_1k_sc ..
  simp only [fwdNext, fwd, coef, arr_apply, T_ik_sc, upd_same, hU]
  simp only [V_Ik_sc, W_Ik_sc, ← arr_upd]

theorem sweptFwd_sc (co : Coef ℝ) (ix : Idx) (s : Fwd ℝ) :
    sweptFwd (u.acc * g) (u.coef co) ix (u.fwd s) = u.fwd (sweptFwd g co ix s) := by
  unfold sweptFwd forwardRecurrence
  refine forRange_map u.fwd _ _ _ _ fun k s => ?_
  unfold fwdSuperlink
  rw [fwdFirst_sc]
  exact forRange_map u.fwd _ _ _ _ fun i s => u.fwdNext_sc ..

theorem bwdFirst_sc (co : Coef ℝ) (I1 i1 : ℕ) (s : Bwd ℝ) :
    bwdFirst (u.acc * g) (u.coef co) I1 i1 (u.bwd s) = u.bwd (bwdFirst g co I1 i1 s) := by
  have hO : ∀ a b c : ℝ, O_nk (u.vel * a) (u.vel * b) (u.vel * c) = u.vel * O_nk a b c := u.T_1k_sc
  simp only [bwdFirst, bwd, coef, arr_apply, hO, upd_same, arr_upd, X_Nk_sc, Y_Nk_sc, Z_Nk_sc]

theorem bwdNext_sc (co : Coef ℝ) (I1 i1 i : ℕ) (s : Bwd ℝ) :
    bwdNext (u.acc * g) (u.coef co) I1 i1 i (u.bwd s) = u.bwd (bwdNext g co I1 i1 i s) := by
  have hX : ∀ (I : ℕ) (A E a O : ℝ), upd (arr u.con s.X) I (X_Ik (u.L ^ 2 * A) (u.con * E) (u.vel * a) (u.vel * O)
      (u.acc * g)) = arr u.con (upd s.X I (X_Ik A E a O g)) := fun I A E a O => by
    rw [arr_upd]; congr 1; exact u.X_Nk_sc ..
  simp only [bwdNext, bwd, coef, arr_apply, O_ik_sc, upd_same, hX]
  simp only [Y_Ik_sc, Z_Ik_sc, ← arr_upd]

theorem sweptBwd_sc (co : Coef ℝ) (ix : Idx) (s : Bwd ℝ) :
    sweptBwd (u.acc * g) (u.coef co) ix (u.bwd s) = u.bwd (sweptBwd g co ix s) := by
  unfold sweptBwd backwardRecurrence
  refine forRange_map u.bwd _ _ _ _ fun k s => ?_
  unfold bwdSuperlink
  rw [bwdFirst_sc]
  exact forRange_map u.bwd _ _ _ _ fun i s => u.bwdNext_sc ..

/-! ### Internal depths and flows -/

/-- Depths and flows at the other scale. -/
noncomputable def hq (s : HQ ℝ) : HQ ℝ := ⟨arr u.L s.h, arr u.dis s.Q⟩

theorem clipDepth_sc (lo hi h : ℝ) : clipDepth (u.L * lo) (u.L * hi) (u.L * h) = u.L * clipDepth lo hi h := by
  have h1 : ∀ a b : ℝ, (u.L * a < u.L * b) = (a < b) := fun a b => propext (mul_lt_mul_iff_right₀ u.hL)
  simp only [clipDepth, h1, gt_iff_lt, ← mul_ite]

theorem Q_i_f_sc (h h1 U V W : ℝ) :
    Q_i_f (u.L * h) (u.L * h1) (u.con * U) (u.dis * V) (u.con * W) = u.dis * Q_i_f h h1 U V W := by
  unfold Q_i_f; rw [dis_eq]; ring

theorem Q_i_b_sc (h h1 X Y Z : ℝ) :
    Q_i_b (u.L * h) (u.L * h1) (u.con * X) (u.dis * Y) (u.con * Z) = u.dis * Q_i_b h h1 X Y Z := by
  unfold Q_i_b; rw [dis_eq]; ring

theorem h_i_b_sc (Q h1 X Y Z : ℝ) :
    h_i_b (u.dis * Q) (u.L * h1) (u.con * X) (u.dis * Y) (u.con * Z) = u.L * h_i_b Q h1 X Y Z :=
  sdiv (a := u.dis) (by rw [dis_eq]; ring) rfl u.con_ne u.dis_eq

theorem internalsNext_sc (f : Fwd ℝ) (b : Bwd ℝ) (mn mx h1 hN : ℝ) (I_N i_n j : ℕ) (s : HQ ℝ) :
    internalsNext (u.fwd f) (u.bwd b) (u.L * mn) (u.L * mx) (u.L * h1) (u.L * hN) I_N i_n j (u.hq s) =
      u.hq (internalsNext f b mn mx h1 hN I_N i_n j s) := by
  simp only [internalsNext, fwd, bwd, hq, arr_apply, Q_i_f_sc, upd_same, h_i_b_sc, clipDepth_sc, arr_upd]

theorem internalsSuperlink_sc (f : Fwd ℝ) (b : Bwd ℝ) (mn mx hu hd : ℝ) (n I1 i1 : ℕ) (back : Bool) (s : HQ ℝ) :
    internalsSuperlink (u.fwd f) (u.bwd b) (u.L * mn) (u.L * mx) (u.L * hu) (u.L * hd) n I1 i1 back (u.hq s) =
      u.hq (internalsSuperlink f b mn mx hu hd n I1 i1 back s) := by
  unfold internalsSuperlink
  simp only
  rw [show ({ u.hq s with h := upd (upd (u.hq s).h I1 (u.L * hu)) (I1 + n) (u.L * hd) } : HQ ℝ) =
      u.hq { s with h := upd (upd s.h I1 hu) (I1 + n) hd } by simp only [hq, arr_upd],
    forRange_map u.hq _ (internalsNext f b mn mx hu hd (I1 + n - 1) (i1 + n - 1)) _ _
      fun k s => u.internalsNext_sc ..]
  cases back
  · simp only [hq, fwd, arr_apply, Q_i_f_sc, arr_upd, Bool.false_eq_true, if_false]
  · simp only [hq, bwd, arr_apply, Q_i_b_sc, arr_upd, if_true]

theorem sweptInternals_sc (co : Coef ℝ) (ix : Idx) (mn : ℝ) (mx hu hd : ℕ → ℝ) (back : Bool) (f : Fwd ℝ)
    (b : Bwd ℝ) (s : HQ ℝ) :
    sweptInternals (u.acc * g) (u.coef co) ix (u.L * mn) (arr u.L mx) (arr u.L hu) (arr u.L hd) back (u.fwd f)
      (u.bwd b) (u.hq s) = u.hq (sweptInternals g co ix mn mx hu hd back f b s) := by
  have h1 : ∀ a b : ℝ, (u.L * a < u.L * b) = (a < b) := fun a b => propext (mul_lt_mul_iff_right₀ u.hL)
  unfold sweptInternals solveInternals numbaSolveInternals
  rw [sweptFwd_sc, sweptBwd_sc]
  simp only
  rw [forRange_map u.hq ix.NK
    (fun k s => internalsSuperlink (sweptFwd g co ix f) (sweptBwd g co ix b) mn (mx k) (hu k) (hd k) (ix.nk k)
      (ix.I_1k k) (ix.i_1k k) back s)
    (fun k s => internalsSuperlink (u.fwd (sweptFwd g co ix f)) (u.bwd (sweptBwd g co ix b)) (u.L * mn)
      (arr u.L mx k) (arr u.L hu k) (arr u.L hd k) (ix.nk k) (ix.I_1k k) (ix.i_1k k) back s) s
    fun k s => u.internalsSuperlink_sc ..]
  simp only [hq, arr_apply, h1, ← mul_ite]
  rfl

/-! ### Link and junction coefficients -/

theorem pyDiv_sc {n n' d d' a b c : ℝ} (hn : n' = a * n) (hd : d' = b * d) (hb : b ≠ 0) (hab : a = c * b) :
    pyDiv n' d' = (pyDiv n d).map (c * ·) := by
  unfold pyDiv
  by_cases h : d = 0
  · rw [if_pos h, if_pos (by rw [hd, h, mul_zero])]; rfl
  · rw [if_neg h, if_neg (by rw [hd]; exact mul_ne_zero hb h)]
    simp only [Except.map, mdiv hn hd hb hab]

theorem bind_map {α β γ : Type} {x : Except PyErr α} {f : α → β} {k : β → Except PyErr γ} :
    (x.map f >>= k) = x >>= fun a => k (f a) := by
  cases x <;> rfl

theorem abs_sc {c : ℝ} (hc : 0 < c) (x : ℝ) : |c * x| = c * |x| := by rw [abs_mul, abs_of_pos hc]

/-- A positive factor leaves a power, whatever the sign of the rest. -/
theorem rpow_sc {c : ℝ} (hc : 0 < c) (x p : ℝ) : (c * x) ^ p = c ^ p * x ^ p := by
  rcases le_or_gt 0 x with h | h
  · exact Real.mul_rpow hc.le h
  · rw [Real.rpow_def_of_neg (mul_neg_of_pos_of_neg hc h), Real.rpow_def_of_neg h, Real.rpow_def_of_pos hc,
      Real.log_mul hc.ne' h.ne, add_mul, Real.exp_add]
    ring

theorem pos_sc {c : ℝ} (hc : 0 < c) (x : ℝ) : (0 < c * x) = (0 < x) :=
  propext ⟨fun h => (mul_pos_iff_of_pos_left hc).mp h, mul_pos hc⟩

/-- Friction by Manning and by Hazen and Williams; also the rejected codes. -/
theorem frictionSlope_sc (Q dx A R n : ℝ) {method : ℤ} (hm : method ≠ 2) :
    frictionSlope (u.dis * Q) (u.L * dx) (u.L ^ 2 * A) (u.L * R) (u.rough method n) method (u.acc * g) =
      (frictionSlope Q dx A R n method g).map (u.vel * ·) := by
  have hL := u.hL
  have hw := u.hw
  unfold frictionSlope
  simp only [pos_sc (pow_pos hL 2), if_neg hm]
  by_cases hA : 0 < A
  · simp only [if_pos hA]
    by_cases h0 : method = 0
    · simp only [if_pos h0, rough]
      set c : ℝ := u.L ^ (1 / 3 : ℝ) with hc
      have hcp : 0 < c := Real.rpow_pos_of_pos hL _
      have hc3 : c ^ 3 = u.L := by
        rw [hc, ← Real.rpow_natCast, ← Real.rpow_mul hL.le]; norm_num
      have h43 : (u.L * R) ^ (4 / 3 : ℝ) = c ^ 4 * R ^ (4 / 3 : ℝ) := by
        rw [rpow_sc hL, hc, ← Real.rpow_natCast, ← Real.rpow_mul hL.le]; norm_num
      rw [pyDiv_sc (n := g * n ^ 2 * |Q| * dx) (a := u.L ^ 2 * u.vel * c ^ 4) (c := u.vel * c ^ 4)
        (by rw [abs_sc u.dis_pos]; unfold acc dis vel; rw [← hc3]; field_simp) rfl (pow_pos hL 2).ne' (by ring),
        bind_map]
      cases pyDiv (g * n ^ 2 * |Q| * dx) A with
      | error e => rfl
      | ok t =>
        show pyDiv _ _ = Except.map _ (pyDiv t _)
        exact pyDiv_sc (a := u.vel * c ^ 4) rfl h43 (pow_pos hcp 4).ne' rfl
    · simp only [if_neg h0]
      by_cases h1 : method = 1
      · simp only [if_pos h1, rough, if_neg h0]
        set k : ℝ := u.vel ^ (0.85 : ℝ) with hk
        set f : ℝ := (u.L ^ (0.37 : ℝ) * u.w) ^ (1.85 : ℝ) with hf
        set r : ℝ := u.L ^ (1.1655 : ℝ) with hr
        have hb : (0:ℝ) < u.L ^ (0.37 : ℝ) * u.w := mul_pos (Real.rpow_pos_of_pos hL _) hw
        have hfp : 0 < f := Real.rpow_pos_of_pos hb _
        have hrp : 0 < r := Real.rpow_pos_of_pos hL _
        have hq : u.dis ^ (0.85 : ℝ) = (u.L ^ 2) ^ (0.85 : ℝ) * k := by
          rw [hk, ← Real.mul_rpow (pow_pos hL 2).le u.vel_pos.le]; congr 1; unfold dis vel; ring
        have hfr : f * r = u.vel * k := by
          rw [hk, show u.vel * u.vel ^ (0.85 : ℝ) = u.vel ^ (1.85 : ℝ) by
            rw [show (1.85 : ℝ) = 1 + 0.85 by norm_num, Real.rpow_add u.vel_pos, Real.rpow_one], hf, hr, vel,
            Real.mul_rpow (Real.rpow_nonneg hL.le _) hw.le, Real.mul_rpow hL.le hw.le, ← Real.rpow_mul hL.le,
            show (1.85 : ℝ) = 0.37 * 1.85 + 1.1655 by norm_num, Real.rpow_add hL]
          norm_num
          ring
        rw [pyDiv_sc (n := 1.354 * g * |Q| ^ (0.85 : ℝ) * dx) (d := A ^ (0.85 : ℝ))
          (a := u.acc * u.L * k * (u.L ^ 2) ^ (0.85 : ℝ)) (b := (u.L ^ 2) ^ (0.85 : ℝ)) (c := u.acc * u.L * k)
          (by rw [abs_sc u.dis_pos, rpow_sc u.dis_pos, hq]; ring) (rpow_sc (pow_pos hL 2) _ _)
          (Real.rpow_pos_of_pos (pow_pos hL 2) _).ne' rfl, bind_map]
        cases pyDiv (1.354 * g * |Q| ^ (0.85 : ℝ) * dx) (A ^ (0.85 : ℝ)) with
        | error e => rfl
        | ok t =>
          show (pyDiv _ _ >>= _) = Except.map _ (pyDiv t _ >>= _)
          rw [pyDiv_sc (n := t) (d := n ^ (1.85 : ℝ)) (a := u.vel * r * f) (b := f) (c := u.vel * r)
            (by rw [show u.acc * u.L * k = u.vel * (u.vel * k) by unfold acc vel; ring, ← hfr]; ring)
            (rpow_sc hb _ _) hfp.ne' rfl, bind_map]
          cases pyDiv t (n ^ (1.85 : ℝ)) with
          | error e => rfl
          | ok t =>
            show pyDiv _ _ = Except.map _ (pyDiv t _)
            exact pyDiv_sc (a := u.vel * r) rfl (rpow_sc hL _ _) hrp.ne' rfl
      · simp only [if_neg h1]; rfl
  · simp only [if_neg hA, Except.map, mul_zero]

theorem div_dt (x y dt : ℝ) : x / (u.w⁻¹ * dt) * y = u.w * (x / dt * y) := by
  rw [div_mul_eq_div_div, div_inv_eq_mul]; ring

theorem div_dt' (x dt : ℝ) : x / (u.w⁻¹ * dt) = u.w * (x / dt) := by
  rw [div_mul_eq_div_div, div_inv_eq_mul]; ring

theorem max_sc {c : ℝ} (hc : 0 < c) (x y : ℝ) : max (c * x) (c * y) = c * max x y :=
  (mul_max_of_nonneg x y hc.le).symm

theorem min_sc {c : ℝ} (hc : 0 < c) (x y : ℝ) : min (c * x) (c * y) = c * min x y :=
  (mul_min_of_nonneg x y hc.le).symm

theorem max_zero_sc {c : ℝ} (hc : 0 < c) (x : ℝ) : max (c * x) 0 = c * max x 0 := by
  have := max_sc hc x 0
  rwa [mul_zero] at this

theorem aIk_sc (x s : ℝ) : aIk (u.vel * x) s = u.vel * aIk x s := by
  unfold aIk
  rw [max_zero_sc u.vel_pos]; ring

theorem cIk_sc (x s : ℝ) : cIk (u.vel * x) s = u.vel * cIk x s := by
  unfold cIk
  rw [show -(u.vel * x) = u.vel * -x by ring, max_zero_sc u.vel_pos]; ring

theorem eq_zero_sc {c : ℝ} (hc : 0 < c) (x : ℝ) : (c * x = 0) = (x = 0) := propext (by simp [hc.ne'])

theorem ite_div (n d : ℝ) : (if d ≠ 0 then n / d else 0) = n / d := by
  split_ifs with h
  · rfl
  · rw [not_not.mp h, div_zero]

theorem uik_sc (Q A : ℝ) : uik (u.dis * Q) (u.L ^ 2 * A) = u.vel * uik Q A := by
  unfold uik
  rw [ite_div, ite_div]
  exact mdiv (a := u.dis) rfl rfl (pow_pos u.hL 2).ne' (by unfold dis vel; ring)

theorem uIk_sc (dx v : ℕ → ℝ) (b : ℕ → Bool) (i : ℕ) :
    uIk (arr u.L dx) (arr u.vel v) b i = u.vel * uIk dx v b i := by
  unfold uIk
  simp only [ite_div]
  split_ifs
  · rfl
  · exact mdiv (a := u.L * u.vel) (by simp only [arr_apply]; ring) (by simp only [arr_apply]; ring) u.L_ne (by ring)

theorem uIp1k_sc (dx v : ℕ → ℝ) (b : ℕ → Bool) (i : ℕ) :
    uIp1k (arr u.L dx) (arr u.vel v) b i = u.vel * uIp1k dx v b i := by
  unfold uIp1k
  simp only [ite_div]
  split_ifs
  · rfl
  · exact mdiv (a := u.L * u.vel) (by simp only [arr_apply]; ring) (by simp only [arr_apply]; ring) u.L_ne (by ring)

/-- Inputs of the link coefficients at the other scale. -/
noncomputable def linkIn (x : LinkIn) : LinkIn :=
  { x with
    dx := arr u.L x.dx
    n := fun i => u.rough (x.method i) (x.n i)
    Qprev := arr u.dis x.Qprev
    Qnext := arr u.dis x.Qnext
    A := arr (u.L ^ 2) x.A
    R := arr u.L x.R
    A_c := arr (u.L ^ 2) x.A_c
    dt := u.w⁻¹ * x.dt }

theorem velocities_sc (x : LinkIn) : (fun i => uik ((u.linkIn x).Qnext i) ((u.linkIn x).A i)) =
    arr u.vel fun i => uik (x.Qnext i) (x.A i) := by
  funext i; exact u.uik_sc _ _

theorem a_sc (x : LinkIn) (i : ℕ) : (u.linkIn x).a i = u.vel * x.a i := by
  unfold LinkIn.a
  rw [velocities_sc]
  show aIk (uIk (arr u.L x.dx) _ x.linkStart i) (x.sigma i) = _
  rw [uIk_sc, aIk_sc]

theorem c_sc (x : LinkIn) (i : ℕ) : (u.linkIn x).c i = u.vel * x.c i := by
  unfold LinkIn.c
  rw [velocities_sc]
  show cIk (uIp1k (arr u.L x.dx) _ x.linkEnd i) (x.sigma i) = _
  rw [uIp1k_sc, cIk_sc]

theorem bIk_sc (dx dt n Q A R A_c C a c : ℝ) (ctrl : Bool) (sigma : ℝ) {method : ℤ} (hm : method ≠ 2) :
    bIk (u.L * dx) (u.w⁻¹ * dt) (u.rough method n) (u.dis * Q) (u.L ^ 2 * A) (u.L * R) (u.L ^ 2 * A_c) C
      (u.vel * a) (u.vel * c) ctrl sigma method (u.acc * g) =
      (bIk dx dt n Q A R A_c C a c ctrl sigma method g).map (u.vel * ·) := by
  have hc : (if ctrl = true then C * (u.L ^ 2 * A) * |u.dis * Q| / (u.L ^ 2 * A_c) ^ 2 else 0) =
      u.vel * (if ctrl = true then C * A * |Q| / A_c ^ 2 else 0) := by
    split_ifs
    · exact mdiv (a := u.vel * (u.L ^ 2) ^ 2) (by rw [abs_sc u.dis_pos]; unfold dis vel; ring) (mul_pow _ _ 2)
        (pow_ne_zero 2 (pow_pos u.hL 2).ne') rfl
    · rw [mul_zero]
  unfold bIk
  simp only
  rw [frictionSlope_sc u g _ _ _ _ _ hm, bind_map, hc]
  cases frictionSlope Q dx A R n method g with
  | error e => rfl
  | ok t =>
    show Except.ok _ = Except.ok _
    congr 1
    rw [div_dt, mul_div_assoc]
    unfold vel
    ring

theorem b_sc (x : LinkIn) (i : ℕ) (hm : x.method i ≠ 2) :
    (u.linkIn x).b (u.acc * g) i = (x.b g i).map (u.vel * ·) := by
  unfold LinkIn.b
  rw [a_sc, c_sc]
  exact u.bIk_sc g _ _ _ _ _ _ _ _ _ _ _ _ hm

theorem P_sc (x : LinkIn) (i : ℕ) : (u.linkIn x).P (u.acc * g) i = u.L ^ 4 * u.w ^ 2 * x.P g i := by
  simp only [LinkIn.P, PIk, linkIn, arr_apply]
  rw [div_dt]
  unfold acc
  rw [show u.dis * x.Qprev i * (u.L * x.dx i) = u.dis * u.L * (x.Qprev i * x.dx i) by ring, mul_div_assoc]
  unfold dis
  ring

/-- Inputs of the junction coefficients at the other scale. -/
noncomputable def nodeIn (x : NodeIn) : NodeIn where
  Q_0 := arr u.dis x.Q_0
  B := arr u.L x.B
  h := arr u.L x.h
  dx := arr u.L x.dx
  A_S := arr (u.L ^ 2) x.A_S
  B_uk := arr u.L x.B_uk
  B_dk := arr u.L x.B_dk
  dx_uk := arr u.L x.dx_uk
  dx_dk := arr u.L x.dx_dk
  dt := u.w⁻¹ * x.dt

theorem EIk_sc (B d B' d' A dt : ℝ) :
    EIk (u.L * B) (u.L * d) (u.L * B') (u.L * d') (u.L ^ 2 * A) (u.w⁻¹ * dt) = u.con * EIk B d B' d' A dt := by
  unfold EIk
  rw [div_dt', show u.L * B * (u.L * d) / 2 + u.L * B' * (u.L * d') / 2 + u.L ^ 2 * A =
    u.L ^ 2 * (B * d / 2 + B' * d' / 2 + A) by ring, mul_div_assoc]
  unfold con; ring

theorem DIk_sc (q B d B' d' A h dt : ℝ) :
    DIk (u.dis * q) (u.L * B) (u.L * d) (u.L * B') (u.L * d') (u.L ^ 2 * A) (u.L * h) (u.w⁻¹ * dt) =
      u.dis * DIk q B d B' d' A h dt := by
  unfold DIk
  rw [div_dt', mul_div_assoc]
  unfold dis; ring

theorem nodeE_sc (x : NodeIn) (ix : NodeIdx) (I : ℕ) : nodeE (u.nodeIn x) ix I = u.con * nodeE x ix I := by
  simp only [nodeE, nodeIn, arr_apply, EIk_sc, ← mul_ite]

theorem nodeD_sc (x : NodeIn) (ix : NodeIdx) (I : ℕ) : nodeD (u.nodeIn x) ix I = u.dis * nodeD x ix I := by
  simp only [nodeD, nodeIn, arr_apply, DIk_sc, ← mul_ite]

theorem stepCoefs_sc {N : ℕ} {x : LinkIn} {y : NodeIn} {ix : NodeIdx} {co : Coef ℝ}
    (hm : ∀ i, i < N → x.method i ≠ 2) (h : StepCoefs g N x y ix co) :
    StepCoefs (u.acc * g) N (u.linkIn x) (u.nodeIn y) ix (u.coef co) := by
  refine ⟨fun i hi => ?_, fun I => ?_, fun I => ?_⟩
  · obtain ⟨h1, h2, h3, h4, h5⟩ := h.1 i hi
    refine ⟨?_, ?_, ?_, ?_, ?_⟩
    · rw [a_sc, ← h1]; rfl
    · rw [b_sc u g x i (hm i hi), h2]; rfl
    · rw [c_sc, ← h3]; rfl
    · rw [P_sc, ← h4]; rfl
    · show u.L ^ 2 * co.A i = u.L ^ 2 * x.A i
      rw [h5]
  · rw [nodeE_sc, ← h.2.1 I]; rfl
  · rw [nodeD_sc, ← h.2.2 I]; rfl

/-! ### Ends of superlinks -/

theorem theta_sc (H z : ℝ) : theta (u.L * H) (u.L * z) = theta H z := by
  unfold theta; simp only [ge_iff_le, mul_le_mul_iff_right₀ u.hL]

theorem gammaUk_sc (Q C A : ℝ) : gammaUk (u.dis * Q) C (u.L ^ 2 * A) (u.acc * g) = u.con⁻¹ * gammaUk Q C A g := by
  refine sdiv (a := u.dis) (b := (u.L ^ 2) ^ 2 * u.acc) ?_ (by ring)
    (mul_ne_zero (pow_ne_zero 2 (pow_pos u.hL 2).ne') u.acc_pos.ne') ?_
  · rw [abs_sc u.dis_pos]; ring
  · have := u.con_ne
    field_simp
    unfold con dis acc; ring

theorem gammaDk_sc (Q C A : ℝ) : gammaDk (u.dis * Q) C (u.L ^ 2 * A) (u.acc * g) = u.con⁻¹ * gammaDk Q C A g := by
  refine sdiv (a := u.dis) (b := (u.L ^ 2) ^ 2 * u.acc) ?_ (by ring)
    (mul_ne_zero (pow_ne_zero 2 (pow_pos u.hL 2).ne') u.acc_pos.ne') ?_
  · rw [abs_sc u.dis_pos]; ring
  · have := u.con_ne
    field_simp
    unfold con dis acc; ring

theorem headCoefZ_sc (Hu Hd Qu Qd Cu Cd Au Ad zu zd : ℝ) :
    headCoefZ (u.acc * g) (u.L * Hu) (u.L * Hd) (u.dis * Qu) (u.dis * Qd) Cu Cd (u.L ^ 2 * Au) (u.L ^ 2 * Ad)
      (u.L * zu) (u.L * zd) = u.headCoef (headCoefZ g Hu Hd Qu Qd Cu Cd Au Ad zu zd) := by
  simp only [headCoefZ, headCoef, theta_sc, gammaUk_sc, gammaDk_sc, HeadCoef.mk.injEq, true_and]
  constructor <;> ring

variable (r : EndRec ℝ) (k : HeadCoef ℝ)

theorem kap (x y : ℝ) : u.con * x * (u.con⁻¹ * y) = x * y := by
  have := u.con_ne; field_simp

theorem DkStar_sc : DkStar (u.endRec r) (u.headCoef k) = DkStar r k := by
  simp only [DkStar, endRec, headCoef, kap]

theorem one_sdiv {n n' d d' c : ℝ} (hn : n' = c * n) (hd : d' = d) : safeDivide n' d' = c * safeDivide n d :=
  sdiv (b := 1) hn (by rw [hd, one_mul]) one_ne_zero (mul_one c).symm

theorem alphaUk_sc : alphaUk (u.endRec r) (u.headCoef k) = u.con * alphaUk r k :=
  one_sdiv (by simp only [endRec, headCoef, kap]; ring) (u.DkStar_sc r k)

theorem betaUk_sc : betaUk (u.endRec r) (u.headCoef k) = u.con * betaUk r k :=
  one_sdiv (by simp only [endRec, headCoef, kap]; ring) (u.DkStar_sc r k)

theorem chiUk_sc : chiUk (u.endRec r) (u.headCoef k) = u.dis * chiUk r k :=
  one_sdiv (by simp only [endRec, headCoef, kap, dis_eq]; ring) (u.DkStar_sc r k)

theorem alphaDk_sc : alphaDk (u.endRec r) (u.headCoef k) = u.con * alphaDk r k :=
  one_sdiv (by simp only [endRec, headCoef, kap]; ring) (u.DkStar_sc r k)

theorem betaDk_sc : betaDk (u.endRec r) (u.headCoef k) = u.con * betaDk r k :=
  one_sdiv (by simp only [endRec, headCoef, kap]; ring) (u.DkStar_sc r k)

theorem chiDk_sc : chiDk (u.endRec r) (u.headCoef k) = u.dis * chiDk r k :=
  one_sdiv (by simp only [endRec, headCoef, kap, dis_eq]; ring) (u.DkStar_sc r k)

theorem Quk_sc (Hu Hd : ℝ) : Quk (u.endRec r) (u.headCoef k) (u.L * Hu) (u.L * Hd) = u.dis * Quk r k Hu Hd := by
  simp only [Quk, alphaUk_sc, betaUk_sc, chiUk_sc, dis_eq]; ring

theorem Qdk_sc (Hu Hd : ℝ) : Qdk (u.endRec r) (u.headCoef k) (u.L * Hu) (u.L * Hd) = u.dis * Qdk r k Hu Hd := by
  simp only [Qdk, alphaDk_sc, betaDk_sc, chiDk_sc, dis_eq]; ring

theorem kapd (x y : ℝ) : u.con⁻¹ * x * (u.dis * y) = u.L * (x * y) := by
  have := u.con_ne; rw [dis_eq]; field_simp

theorem huk_sc (Hu Hd : ℝ) : huk (u.endRec r) (u.headCoef k) (u.L * Hu) (u.L * Hd) = u.L * huk r k Hu Hd := by
  simp only [huk, Quk_sc]
  simp only [headCoef, kapd]; ring

theorem hdk_sc (Hu Hd : ℝ) : hdk (u.endRec r) (u.headCoef k) (u.L * Hu) (u.L * Hd) = u.L * hdk r k Hu Hd := by
  simp only [hdk, Qdk_sc]
  simp only [headCoef, kapd]; ring

theorem endRec_sc (e : EndMethod) (co : Coef ℝ) (n : ℕ) (U V W X Y Z : ℕ → ℝ) :
    Superlink.endRec e (u.coef co) n (arr u.con U) (arr u.dis V) (arr u.con W) (arr u.con X) (arr u.dis Y)
      (arr u.con Z) = u.endRec (Superlink.endRec e co n U V W X Y Z) := by
  cases e <;> simp only [Superlink.endRec, endRec, coef, arr_apply, mul_add, mul_sub]

end Scale

end Pipedream.Step
