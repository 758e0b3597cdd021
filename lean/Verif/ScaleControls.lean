import Verif.ScaleLemmas
import Verif.StepProps

/-!
# Controls, sections and storages under a change of scale

Helper lemmas for `ScaleProps`.
-/

namespace Pipedream.Step

open Pipedream.Sweep Pipedream.Link Pipedream.Superlink Pipedream.Control Pipedream.Network
open Pipedream.Geometry Pipedream.Interp

namespace Scale

variable (u : Scale) (g : ℝ)

/-! ### Controls -/

theorem lt_sc {c : ℝ} (hc : 0 < c) (x y : ℝ) : (c * x < c * y) = (x < y) := propext (mul_lt_mul_iff_right₀ hc)

theorem le_sc {c : ℝ} (hc : 0 < c) (x y : ℝ) : (c * x ≤ c * y) = (x ≤ y) := propext (mul_le_mul_iff_right₀ hc)

theorem gt_sc {c x y x' y' : ℝ} (hc : 0 < c) (hx : x' = c * x) (hy : y' = c * y) : (x' > y') = (x > y) := by
  rw [hx, hy]; exact lt_sc hc y x

theorem omega_sc (Hu Hd : ℝ) : omega (u.L * Hu) (u.L * Hd) = omega Hu Hd := by
  unfold omega; simp only [ge_iff_le, le_sc u.hL]

theorem sgn_sc (Hu Hd : ℝ) : sgn (u.L * Hu) (u.L * Hd) = sgn Hu Hd := by
  unfold sgn; simp only [ge_iff_le, le_sc u.hL]

/-- The linear relation of an orifice; `γ` may have any factor. -/
theorem orificeCoef_sc {c c' : ℝ} (hc' : c' = u.L * c) (old : Lin) (γ Hu Hd x : ℝ) (o : Orifice) :
    orificeCoef ⟨c * old.alpha, c * old.beta, c' * old.chi⟩ (c * γ) (u.L * Hu) (u.L * Hd) x (u.orifice o) =
      ⟨c * (orificeCoef old γ Hu Hd x o).alpha, c * (orificeCoef old γ Hu Hd x o).beta,
        c' * (orificeCoef old γ Hu Hd x o).chi⟩ := by
  have c0 : ∀ a b : ℝ, (a * (u.L * Hu) + b * (u.L * Hd) > u.L * o.z_o + u.L * o.z_inv + o.tau * (u.L * o.y_max) * x) =
      (a * Hu + b * Hd > o.z_o + o.z_inv + o.tau * o.y_max * x) := fun a b =>
    gt_sc u.hL (by ring) (by ring)
  have c1 : ∀ a b : ℝ,
      (a * (u.L * Hu) + b * (u.L * Hd) > u.L * o.z_o + u.L * o.z_inv + o.tau * (u.L * o.y_max) * x / 2) =
      (a * Hu + b * Hd > o.z_o + o.z_inv + o.tau * o.y_max * x / 2) := fun a b =>
    gt_sc u.hL (by ring) (by ring)
  have c2 : ∀ a b : ℝ, (a * (u.L * Hu) + b * (u.L * Hd) > u.L * o.z_o + u.L * o.z_inv) =
      (a * Hu + b * Hd > o.z_o + o.z_inv) := fun a b =>
    gt_sc u.hL (by ring) (by ring)
  simp only [orificeCoef, orifice, omega_sc, sgn_sc, c0, c1, c2, ge_iff_le, le_sc u.hL, hc']
  split_ifs <;> simp only [Lin.mk.injEq] <;> refine ⟨?_, ?_, ?_⟩ <;> first | trivial | ring1

theorem gammaO_sc (Q Ao Co : ℝ) : gammaO (u.dis * Q) (u.L ^ 2 * Ao) Co (u.acc * g) = u.con * gammaO Q Ao Co g :=
  sdiv (a := u.acc * (u.L ^ 2) ^ 2) (by ring) (abs_sc u.dis_pos Q) u.dis_ne (by unfold con dis acc; ring)

theorem orificeLin_sc (old : Lin) (Q Ao Co Hu Hd x : ℝ) (o : Orifice) :
    orificeLin (u.lin old) (u.acc * g) (u.dis * Q) (u.L ^ 2 * Ao) Co (u.L * Hu) (u.L * Hd) x (u.orifice o) =
      u.lin (orificeLin old g Q Ao Co Hu Hd x o) := by
  unfold orificeLin
  rw [gammaO_sc]
  exact u.orificeCoef_sc u.dis_eq ..

theorem orificeRaw_sc (Ao Co Hu Hd x : ℝ) (o : Orifice) :
    orificeRaw (u.acc * g) (u.L ^ 2 * Ao) Co (u.L * Hu) (u.L * Hd) x (u.orifice o) =
      u.dis * orificeRaw g Ao Co Hu Hd x o := by
  have h := u.orificeCoef_sc (c := u.acc * (u.L ^ 2) ^ 2) (c' := u.L * (u.acc * (u.L ^ 2) ^ 2)) rfl ⟨0, 0, 0⟩
    (2 * g * Co ^ 2 * Ao ^ 2) Hu Hd x o
  simp only [mul_zero] at h
  unfold orificeRaw
  simp only
  rw [show 2 * (u.acc * g) * Co ^ 2 * (u.L ^ 2 * Ao) ^ 2 = u.acc * (u.L ^ 2) ^ 2 * (2 * g * Co ^ 2 * Ao ^ 2) by ring, h,
    sgn_sc]
  set l := orificeCoef ⟨0, 0, 0⟩ (2 * g * Co ^ 2 * Ao ^ 2) Hu Hd x o
  simp only
  rw [show u.acc * (u.L ^ 2) ^ 2 * l.alpha * (u.L * Hu) + u.acc * (u.L ^ 2) ^ 2 * l.beta * (u.L * Hd) +
      u.L * (u.acc * (u.L ^ 2) ^ 2) * l.chi = u.dis ^ 2 * (l.alpha * Hu + l.beta * Hd + l.chi) by
    unfold acc dis; ring, abs_sc (pow_pos u.dis_pos 2), Real.sqrt_mul (pow_pos u.dis_pos 2).le,
    Real.sqrt_sq u.dis_pos.le]
  ring

theorem npSign_sc {c : ℝ} (hc : 0 < c) (x : ℝ) : npSign (c * x) = npSign x := by
  have h : (c * x < 0) = (x < 0) := by
    have := lt_sc hc x 0
    rwa [mul_zero] at this
  unfold npSign
  simp only [gt_iff_lt, pos_sc hc, h]

theorem orificeLimit_sc (Q Hu Hd Vu Vd dt : ℝ) :
    orificeLimit (u.dis * Q) (u.L * Hu) (u.L * Hd) (u.L ^ 3 * Vu) (u.L ^ 3 * Vd) (u.w⁻¹ * dt) =
      u.dis * orificeLimit Q Hu Hd Vu Vd dt := by
  unfold orificeLimit
  simp only [gt_iff_lt, lt_sc u.hL, ← mul_ite]
  rw [npSign_sc u.dis_pos, abs_sc u.dis_pos, div_dt', mul_div_assoc,
    show ∀ y : ℝ, u.w * (u.L ^ 3 * y) = u.dis * y from fun y => by unfold dis; ring, min_sc u.dis_pos]
  ring

theorem orificeFlow_sc (Ao Co Hu Hd x Vu Vd dt : ℝ) (o : Orifice) :
    orificeFlow (u.acc * g) (u.L ^ 2 * Ao) Co (u.L * Hu) (u.L * Hd) x (u.L ^ 3 * Vu) (u.L ^ 3 * Vd) (u.w⁻¹ * dt)
      (u.orifice o) = u.dis * orificeFlow g Ao Co Hu Hd x Vu Vd dt o := by
  unfold orificeFlow
  rw [orificeRaw_sc, orificeLimit_sc]

theorem crest_sc (x Hu Hd : ℝ) (o : Weir) (a b : ℝ) :
    (a * (u.L * Hu) + b * (u.L * Hd) > u.L * o.z_w + u.L * o.z_inv + (1 - x) * (u.L * o.y_max)) =
      (a * Hu + b * Hd > o.z_w + o.z_inv + (1 - x) * o.y_max) :=
  gt_sc u.hL (by ring) (by ring)

theorem weirHead_sc (Hu Hd x : ℝ) (o : Weir) :
    weirHead (u.L * Hu) (u.L * Hd) x (u.weir o) = u.L * weirHead Hu Hd x o := by
  simp only [weirHead, weir, omega_sc, crest_sc]
  rw [← abs_sc u.hL]
  congr 1
  split_ifs <;> ring

theorem weirConv_sc (o : Weir) (H : ℝ) : weirConv (u.weir o) (u.L * H) = u.con * u.dis * weirConv o H := by
  have h := Real.sq_sqrt u.hL.le
  unfold weirConv weir con dis
  linear_combination (u.w ^ 2 * u.L ^ 4 * (o.Cwr * o.L * H + o.Cwt * o.s * H ^ 2) ^ 2) * h

theorem gammaW_sc (Q H : ℝ) (o : Weir) : gammaW (u.dis * Q) (u.L * H) (u.weir o) = u.con * gammaW Q H o :=
  sdiv (u.weirConv_sc o H) (abs_sc u.dis_pos Q) u.dis_ne rfl

theorem weirLin_sc (old : Lin) (Q Hu Hd x : ℝ) (o : Weir) :
    weirLin (u.lin old) (u.dis * Q) (u.L * Hu) (u.L * Hd) x (u.weir o) = u.lin (weirLin old Q Hu Hd x o) := by
  simp only [weirLin, weirHead_sc, gammaW_sc]
  simp only [weir, omega_sc, sgn_sc, crest_sc]
  split_ifs <;> simp only [lin, dis_eq, Lin.mk.injEq] <;> refine ⟨?_, ?_, ?_⟩ <;> first | trivial | ring1

theorem weirFlow_sc (Hu Hd x : ℝ) (o : Weir) :
    weirFlow (u.L * Hu) (u.L * Hd) x (u.weir o) = u.dis * weirFlow Hu Hd x o := by
  unfold weirFlow
  simp only [weirHead_sc, weirConv_sc, sgn_sc]
  rw [show u.con * u.dis * weirConv o (weirHead Hu Hd x o) * (u.L * weirHead Hu Hd x o) =
      u.dis ^ 2 * (weirConv o (weirHead Hu Hd x o) * weirHead Hu Hd x o) by rw [dis_eq]; ring,
    Real.sqrt_mul (pow_pos u.dis_pos 2).le, Real.sqrt_sq u.dis_pos.le]
  ring

theorem pumpHead_sc (Hu Hd : ℝ) (p : Pump) : pumpHead (u.L * Hu) (u.L * Hd) (u.pump p) = u.L * pumpHead Hu Hd p := by
  simp only [pumpHead, pump, ← mul_sub, gt_iff_lt, lt_sc u.hL, ← mul_ite]

theorem gammaP_sc (Q x : ℝ) (p : Pump) : gammaP (u.dis * Q) x (u.pump p) = u.con * gammaP Q x p := by
  have hd := u.dis_pos
  refine sdiv (a := 1) (b := u.con⁻¹) (one_mul _).symm ?_ (inv_ne_zero u.con_ne) (mul_inv_cancel₀ u.con_ne).symm
  simp only [pump]
  rw [abs_sc hd, rpow_sc hd, Real.rpow_sub hd, Real.rpow_one]
  have h := (Real.rpow_pos_of_pos hd p.c).ne'
  have hc := u.con_ne
  have hL := u.L_ne
  rw [dis_eq]
  rw [dis_eq] at h
  field_simp

theorem pumpLin_sc (old : Lin) (Q Hu Hd x : ℝ) (p : Pump) :
    pumpLin (u.lin old) (u.dis * Q) (u.L * Hu) (u.L * Hd) x (u.pump p) = u.lin (pumpLin old Q Hu Hd x p) := by
  simp only [pumpLin, gammaP_sc, pumpHead_sc]
  simp only [pump, ← mul_add, ← mul_sub, gt_iff_lt, lt_sc u.hL]
  split_ifs <;> simp only [lin, dis_eq, Lin.mk.injEq] <;> refine ⟨?_, ?_, ?_⟩ <;> first | trivial | ring1

theorem pumpFlow_sc (Hu Hd x : ℝ) (p : Pump) (hc : p.c ≠ 0) :
    pumpFlow (u.L * Hu) (u.L * Hd) x (u.pump p) = u.dis * pumpFlow Hu Hd x p := by
  have hd := u.dis_pos
  have h := Real.rpow_pos_of_pos hd p.c
  unfold pumpFlow
  rw [pumpHead_sc]
  simp only [pump, ← mul_add, ← mul_sub, gt_iff_lt, lt_sc u.hL]
  split_ifs
  · rw [show x / (u.L * (u.dis ^ p.c)⁻¹ * p.b) * (u.L * (p.a - pumpHead Hu Hd p)) =
        u.dis ^ p.c * (x / p.b * (p.a - pumpHead Hu Hd p)) by
      rw [show x / (u.L * (u.dis ^ p.c)⁻¹ * p.b) = u.L⁻¹ * u.dis ^ p.c * (x / p.b) from by
        rw [div_eq_mul_inv, mul_inv, mul_inv, inv_inv, div_eq_mul_inv]; ring]
      have := u.L_ne
      field_simp, rpow_sc h, ← Real.rpow_mul hd.le, mul_one_div_cancel hc, Real.rpow_one]
  · rw [mul_zero]

/-! ### Cross sections -/

theorem wet_sc (h1 h2 : ℝ) : wet (u.L * h1) (u.L * h2) = u.L * wet h1 h2 := by
  unfold wet
  simp only [← mul_add, mul_div_assoc]
  have h : (u.L * ((h1 + h2) / 2) < 0) = ((h1 + h2) / 2 < 0) := by
    have := lt_sc u.hL ((h1 + h2) / 2) 0
    rwa [mul_zero] at this
  simp only [h]
  split_ifs
  · rw [mul_zero]
  · rfl

theorem depth_sc (h1 h2 y : ℝ) : Geometry.depth (u.L * h1) (u.L * h2) (u.L * y) = u.L * Geometry.depth h1 h2 y := by
  unfold Geometry.depth
  simp only [wet_sc, gt_iff_lt, lt_sc u.hL, ← mul_ite]

theorem circTheta_sc (y d : ℝ) : circTheta (u.L * y) (u.L * d) = circTheta y d := by
  unfold circTheta
  simp only [mul_div_assoc, mul_div_mul_left _ _ u.L_ne]

theorem tiers_sc (y a b c d : ℝ) : tiers (u.L * y) (u.L * a) (u.L * b) c d =
    ⟨u.L * (tiers y a b c d).y_base, u.L * (tiers y a b c d).y_middle, u.L * (tiers y a b c d).y_top,
      u.L * (tiers y a b c d).b_middle, u.L * (tiers y a b c d).b_top⟩ := by
  unfold tiers
  simp only [← mul_add, lt_sc u.hL]
  split_ifs <;> simp only [Tiers.mk.injEq] <;> refine ⟨?_, ?_, ?_, ?_, ?_⟩ <;> first | trivial | ring1

theorem ind_sc (y : ℝ) : ind (u.L * y) = ind y := by
  unfold ind; simp only [gt_iff_lt, pos_sc u.hL]

theorem area_sc (s : Shape) (p : GP) (h1 h2 : ℝ) :
    area s (u.gp s p) (u.L * h1) (u.L * h2) = u.L ^ 2 * area s p h1 h2 := by
  cases s <;> simp only [area, gp]
  case circular =>
    unfold circularA
    simp only [depth_sc, circTheta_sc]; ring
  case rectClosed => simp only [rectA, depth_sc]; ring
  case rectOpen => simp only [rectA, depth_sc]; ring
  case triangular => simp only [triangularA, depth_sc]; ring
  case trapezoidal => simp only [trapezoidalA, depth_sc]; ring
  case parabolic => simp only [parabolicA, depth_sc]; ring
  case elliptical =>
    simp only [ellipticalA, depth_sc]
    rw [show (u.L * Geometry.depth h1 h2 p.g1 - u.L * p.g1 / 2) / (u.L * p.g1 / 2) =
      (Geometry.depth h1 h2 p.g1 - p.g1 / 2) / (p.g1 / 2) by
        rw [mul_div_assoc, ← mul_sub, mul_div_mul_left _ _ u.L_ne]]
    ring
  case wide => simp only [rectA, depth_sc]; ring
  case forceMain => simp only [forceMainA]; ring
  case floodplain =>
    simp only [floodplainA, depth_sc, tiers_sc, ind_sc]; ring

theorem topWidth_sc (s : Shape) (p : GP) (h1 h2 : ℝ) :
    topWidth s (u.gp s p) (u.L * h1) (u.L * h2) = u.L * topWidth s p h1 h2 := by
  cases s <;> simp only [topWidth, gp]
  case circular =>
    simp only [circularB, wet_sc, circTheta_sc, lt_sc u.hL]
    split_ifs <;> ring
  case rectClosed =>
    simp only [rectClosedB, wet_sc, lt_sc u.hL]
    split_ifs <;> ring
  case rectOpen => rfl
  case triangular =>
    simp only [triangularB, wet_sc, lt_sc u.hL]
    split_ifs <;> ring
  case trapezoidal =>
    simp only [trapezoidalB, wet_sc, lt_sc u.hL]
    split_ifs <;> ring
  case parabolic =>
    simp only [parabolicB, wet_sc, mul_div_mul_left _ _ u.L_ne]; ring
  case elliptical =>
    simp only [ellipticalB, depth_sc]
    rw [show (u.L * Geometry.depth h1 h2 p.g1 - u.L * p.g1 / 2) / (u.L * p.g1 / 2) =
      (Geometry.depth h1 h2 p.g1 - p.g1 / 2) / (p.g1 / 2) by
        rw [mul_div_assoc, ← mul_sub, mul_div_mul_left _ _ u.L_ne]]
    set t := Real.arcsin ((Geometry.depth h1 h2 p.g1 - p.g1 / 2) / (p.g1 / 2))
    rw [show (u.L * p.g2 / 2) ^ 2 * Real.cos t ^ 2 + (u.L * p.g1 / 2) ^ 2 * Real.sin t ^ 2 =
      u.L ^ 2 * ((p.g2 / 2) ^ 2 * Real.cos t ^ 2 + (p.g1 / 2) ^ 2 * Real.sin t ^ 2) by ring,
      Real.sqrt_mul (pow_pos u.hL 2).le, Real.sqrt_sq u.hL.le]
    ring
  case wide => rfl
  case forceMain => simp only [forceMainB]; ring
  case floodplain =>
    simp only [floodplainB, depth_sc, ind_sc, ← mul_add, lt_sc u.hL]
    split_ifs <;> ring

/-- The perimeter function of elliptical sections scales like a length. -/
def EllLike (ell : GP → ℝ → ℝ → ℝ) : Prop :=
  ∀ p h1 h2, ell (u.gp .elliptical p) (u.L * h1) (u.L * h2) = u.L * ell p h1 h2

/-- All perimeters but that of a dry parabola, which the code computes at the depth `eps`. -/
theorem perimeter_sc (eps old old' : ℝ) (s : Shape) (p : GP) (h1 h2 : ℝ)
    (ho : s = .elliptical → old' = u.L * old) (hp : s = .parabolic → 0 < (h1 + h2) / 2) :
    perimeter eps old' s (u.gp s p) (u.L * h1) (u.L * h2) = u.L * perimeter eps old s p h1 h2 := by
  cases s <;> simp only [perimeter, gp]
  case circular => simp only [circularPe, depth_sc, circTheta_sc]; ring
  case rectClosed => simp only [rectPe, depth_sc]; ring
  case rectOpen => simp only [rectPe, depth_sc]; ring
  case triangular => simp only [triangularPe, depth_sc]; ring
  case trapezoidal => simp only [trapezoidalPe, depth_sc]; ring
  case parabolic =>
    have h := hp rfl
    unfold parabolicPe
    simp only [← mul_add, mul_div_assoc, if_neg (not_le.mpr h), if_neg (not_le.mpr (mul_pos u.hL h)), gt_iff_lt,
      lt_sc u.hL, ← mul_ite]
    set y := if p.g1 < (h1 + h2) / 2 then p.g1 else (h1 + h2) / 2
    rw [show u.L * (y / (u.L * p.g2)) = y / p.g2 by rw [← mul_div_assoc, mul_div_mul_left _ _ u.L_ne]]
    ring
  case elliptical => exact ho rfl
  case wide => rfl
  case forceMain => simp only [forceMainPe]; ring
  case floodplain => simp only [floodplainPe, depth_sc, tiers_sc, ind_sc]; ring

theorem hydRadius_sc (A Pe : ℝ) : hydRadius (u.L ^ 2 * A) (u.L * Pe) = u.L * hydRadius A Pe := by
  unfold hydRadius
  simp only [gt_iff_lt, pos_sc u.hL]
  split_ifs
  · exact mdiv rfl rfl u.L_ne (by ring)
  · rw [mul_zero]

theorem parabolicA_dry {h1 h2 : ℝ} (g1 g2 : ℝ) (hg : 0 ≤ g1) (h : (h1 + h2) / 2 ≤ 0) : parabolicA h1 h2 g1 g2 = 0 := by
  have hw : wet h1 h2 = 0 := by
    unfold wet
    simp only
    split_ifs with h'
    · rfl
    · exact le_antisymm h (not_lt.mp h')
  have : Geometry.depth h1 h2 g1 = 0 := by
    unfold Geometry.depth
    simp only [hw]
    rw [if_neg (not_lt.mpr hg)]
  unfold parabolicA
  rw [this]; ring

theorem searchsorted_sc (n : ℕ) (xp : ℕ → ℝ) (x : ℝ) : searchsorted n (arr u.L xp) (u.L * x) = searchsorted n xp x := by
  unfold searchsorted
  refine Nat.find_congr' fun {i} => ?_
  rw [arr_apply, le_sc u.hL]

theorem frac_sc (x a b : ℝ) : (u.L * x - u.L * a) / (u.L * x - u.L * a + (u.L * b - u.L * x)) = (x - a) / (x - a + (b - x)) := by
  rw [← mul_sub, ← mul_sub, ← mul_add, mul_div_mul_left _ _ u.L_ne]

theorem interpolate_sc (c : ℝ) (n : ℕ) (xp fp : ℕ → ℝ) (x : ℝ) :
    interpolate .linear n (arr u.L xp) (arr c fp) (u.L * x) = c * interpolate .linear n xp fp x := by
  unfold interpolate
  simp only [searchsorted_sc, arr_apply, frac_sc]
  split_ifs
  · rfl
  · rfl
  · ring

theorem sectA_sc (s : Section) (h1 h2 : ℝ) : (u.sect s).A (u.L * h1) (u.L * h2) = u.L ^ 2 * s.A h1 h2 := by
  cases s with
  | regular s p => exact u.area_sc s p h1 h2
  | irregular n zs As Bs Rs =>
    show interpolate .linear n (arr u.L zs) (arr (u.L ^ 2) As) ((u.L * h1 + u.L * h2) / 2) = _
    rw [← mul_add, mul_div_assoc, interpolate_sc]; rfl

theorem sectB_sc (s : Section) (h1 h2 : ℝ) : (u.sect s).B (u.L * h1) (u.L * h2) = u.L * s.B h1 h2 := by
  cases s with
  | regular s p => exact u.topWidth_sc s p h1 h2
  | irregular n zs As Bs Rs =>
    show interpolate .linear n (arr u.L zs) (arr u.L Bs) ((u.L * h1 + u.L * h2) / 2) = _
    rw [← mul_add, mul_div_assoc, interpolate_sc]; rfl

/-- A parabola is not upside down. -/
def _root_.Pipedream.Step.Section.Upright : Section → Prop
  | .regular .parabolic p => 0 ≤ p.g1
  | _ => True

theorem sectR_sc (eps : ℝ) {ell : GP → ℝ → ℝ → ℝ} (he : u.EllLike ell) (s : Section) (hs : s.Upright) (h1 h2 : ℝ) :
    (u.sect s).R eps ell (u.L * h1) (u.L * h2) = u.L * s.R eps ell h1 h2 := by
  cases s with
  | regular s p =>
    show hydRadius (area s (u.gp s p) _ _) (perimeter eps (ell (u.gp s p) _ _) s (u.gp s p) _ _) =
      u.L * hydRadius _ _
    rw [area_sc]
    by_cases hp : s = .parabolic → 0 < (h1 + h2) / 2
    · rw [u.perimeter_sc eps (ell p h1 h2) _ s p h1 h2 (fun h => by subst h; exact he p h1 h2) hp, hydRadius_sc]
    · obtain ⟨rfl, h⟩ := Classical.not_imp.mp hp
      have h0 : area .parabolic p h1 h2 = 0 := parabolicA_dry _ _ hs (not_lt.mp h)
      simp only [h0, mul_zero, hydRadius, zero_div, ite_self]
  | irregular n zs As Bs Rs =>
    show interpolate .linear n (arr u.L zs) (arr u.L Rs) ((u.L * h1 + u.L * h2) / 2) = _
    rw [← mul_add, mul_div_assoc, interpolate_sc]; rfl

theorem orificeArea_sc (old : ℝ) (s : Shape) (p : GP) (h x : ℝ) :
    orificeArea (u.L ^ 2 * old) s (u.gp s p) (u.L * h) x = (orificeArea old s p h x).map (u.L ^ 2 * ·) := by
  have key : ∀ s, area s { u.gp s p with g1 := (u.gp s p).g1 * x } (u.L * h) (u.L * h) =
      u.L ^ 2 * area s { p with g1 := p.g1 * x } h h := fun s => by
    rw [← area_sc]; congr 1; cases s <;> simp only [gp, mul_assoc]
  have hz : (u.L * p.g1 * x / 2 = 0) = (p.g1 * x / 2 = 0) := by
    rw [show u.L * p.g1 * x / 2 = u.L * (p.g1 * x / 2) by ring, eq_zero_sc u.hL]
  have kz : ∀ s, (u.gp s p).g1 = u.L * p.g1 := fun s => by cases s <;> rfl
  have key' : ∀ s, (Except.ok (area s { u.gp s p with g1 := (u.gp s p).g1 * x } (u.L * h) (u.L * h)) : Except PyErr ℝ) =
      (Except.ok (area s { p with g1 := p.g1 * x } h h)).map (u.L ^ 2 * ·) := fun s => congrArg Except.ok (key s)
  cases s
  case circular =>
    unfold orificeArea
    simp only
    rw [kz .circular]
    by_cases h0 : p.g1 * x / 2 = 0
    · rw [if_pos h0, if_pos (hz.mpr h0)]; rfl
    · rw [if_neg h0, if_neg (fun h => h0 (hz.mp h))]; exact key' .circular
  case elliptical =>
    unfold orificeArea
    simp only
    rw [kz .elliptical]
    by_cases h0 : p.g1 * x / 2 = 0
    · rw [if_pos h0, if_pos (hz.mpr h0)]; rfl
    · rw [if_neg h0, if_neg (fun h => h0 (hz.mp h))]; exact key' .elliptical
  all_goals first | exact key' _ | rfl

/-! ### Storages -/

theorem tabMin_sc {c : ℝ} (hc : 0 < c) (f : ℕ → ℝ) (n : ℕ) : tabMin (arr c f) n = c * tabMin f n := by
  induction n with
  | zero => rfl
  | succ n ih => rw [tabMin, tabMin, ih, arr_apply, min_sc hc]

theorem tabMax_sc {c : ℝ} (hc : 0 < c) (f : ℕ → ℝ) (n : ℕ) : tabMax (arr c f) n = c * tabMax f n := by
  induction n with
  | zero => rfl
  | succ n ih => rw [tabMax, tabMax, ih, arr_apply, max_sc hc]

theorem storageDepth_sc (H z d : ℝ) : storageDepth (u.L * H) (u.L * z) (u.L * d) = u.L * storageDepth H z d := by
  unfold storageDepth
  rw [← mul_sub, max_sc u.hL]

theorem neg_sc {c : ℝ} (hc : 0 < c) (x : ℝ) : (c * x < 0) = (x < 0) := by
  have := lt_sc hc x 0
  rwa [mul_zero] at this

theorem storageA_sc (s : Storage) (h : ℝ) : (u.storage s).A (u.L * h) = u.L ^ 2 * s.A h := by
  cases s with
  | functional a b c =>
    show functionalArea _ _ _ _ = _ * functionalArea _ _ _ _
    unfold functionalArea
    simp only [neg_sc u.hL]
    split_ifs
    · rw [mul_zero]
    · rw [rpow_sc u.hL]
      have := (Real.rpow_pos_of_pos u.hL b).ne'
      field_simp
  | tabular n hs As Vs =>
    show tabularArea _ _ _ _ = _ * tabularArea _ _ _ _
    unfold tabularArea
    simp only [searchsorted_sc, tabMin_sc (pow_pos u.hL 2), tabMax_sc (pow_pos u.hL 2), arr_apply, frac_sc]
    split_ifs <;> ring

theorem storageV_sc (s : Storage) (h : ℝ) : (u.storage s).V (u.L * h) = u.L ^ 3 * s.V h := by
  cases s with
  | functional a b c =>
    show functionalVolume _ _ _ _ = _ * functionalVolume _ _ _ _
    unfold functionalVolume
    simp only [neg_sc u.hL]
    split_ifs
    · rw [mul_zero]
    · rw [rpow_sc u.hL, Real.rpow_add u.hL, Real.rpow_one]
      have := (Real.rpow_pos_of_pos u.hL b).ne'
      rw [mul_div_assoc]
      field_simp
  | tabular n hs As Vs =>
    show tabularVolume _ _ _ _ _ = _ * tabularVolume _ _ _ _ _
    unfold tabularVolume
    simp only [searchsorted_sc, tabMin_sc (pow_pos u.hL 3), tabMax_sc (pow_pos u.hL 3), tabMax_sc (pow_pos u.hL 2),
      tabMax_sc u.hL, arr_apply, frac_sc]
    split_ifs <;> ring

theorem velocity_sc (Q A : ℝ) : safeDivide (u.dis * Q) (u.L ^ 2 * A) = u.vel * safeDivide Q A :=
  sdiv rfl rfl (pow_pos u.hL 2).ne' (by simp only [dis, vel]; ring)

theorem froude_sc (g v A B : ℝ) : Diag.froude (u.acc * g) (u.vel * v) (u.L ^ 2 * A) (u.L * B) = Diag.froude g v A B := by
  unfold Diag.froude
  have hv : 0 < u.vel := mul_pos u.hL u.hw
  rw [abs_mul, abs_of_pos hv, Real.sqrt_mul u.hL.le,
    show u.acc * g * (u.L ^ 2 * A) = (u.vel ^ 2 * u.L) * (g * A) by simp only [acc, vel]; ring,
    Real.sqrt_mul (mul_nonneg (sq_nonneg _) u.hL.le), Real.sqrt_mul (sq_nonneg _), Real.sqrt_sq hv.le]
  have hs : √u.L ≠ 0 := (Real.sqrt_pos.mpr u.hL).ne'
  rw [show u.vel * |v| * (√u.L * √B) = u.vel * √u.L * (|v| * √B) by ring]
  rw [sdiv (c := 1) rfl rfl (mul_pos hv (Real.sqrt_pos.mpr u.hL)).ne' (one_mul _).symm, one_mul]

theorem damping_sc (g Q A B : ℝ) : Diag.damping (u.acc * g) (u.dis * Q) (u.L ^ 2 * A) (u.L * B) = Diag.damping g Q A B := by
  unfold Diag.damping
  rw [velocity_sc, froude_sc]

end Scale

end Pipedream.Step
