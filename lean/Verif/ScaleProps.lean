import Verif.ScaleStep
import Verif.GeometryBaseProps
import Verif.DatumProps

/-!
# C120: similarity of hydraulic models

A geometrically similar model, `L` times as large and driven at times `√L` times as long (Froude's law), gives
the same results at the other scale: heads and depths times `L`, flows times `L^(5/2)`. The theorems are
proved for the whole step with its own geometry, over all histories of calls, and hold more generally for
any change of the units of length and time. Friction by Darcy and Weisbach is the exception, because the
viscosity is a constant of the code.
-/

namespace Pipedream.Step

open Pipedream.Sweep Pipedream.Link Pipedream.Superlink Pipedream.Control Pipedream.Network
open Pipedream.Geometry Pipedream.Interp

namespace Scale

variable (u : Scale)

/-! ### The inverse change of scale -/

/-- Back to the original scale. -/
noncomputable def inv : Scale := ⟨u.L⁻¹, u.w⁻¹, inv_pos.mpr u.hL, inv_pos.mpr u.hw⟩

theorem acc_inv : u.inv.acc = u.acc⁻¹ := by simp only [acc, inv]; rw [mul_inv, inv_pow]
theorem vel_inv : u.inv.vel = u.vel⁻¹ := by simp only [vel, inv]; rw [mul_inv]
theorem con_inv : u.inv.con = u.con⁻¹ := by simp only [con, inv]; rw [mul_inv, inv_pow]
theorem dis_inv : u.inv.dis = u.dis⁻¹ := by simp only [dis, inv]; rw [mul_inv, inv_pow]

theorem mul_back {a b : ℝ} (x : ℝ) (h : b = a⁻¹) (ha : a ≠ 0) : b * (a * x) = x := by
  rw [h, inv_mul_cancel_left₀ ha]

theorem arr_back {a b : ℝ} (f : ℕ → ℝ) (h : b = a⁻¹) (ha : a ≠ 0) : arr b (arr a f) = f := by
  funext i; exact mul_back _ h ha

theorem pow_L (n : ℕ) : u.inv.L ^ n = (u.L ^ n)⁻¹ := inv_pow _ _

theorem powL_ne (n : ℕ) : u.L ^ n ≠ 0 := pow_ne_zero n u.L_ne

theorem back_L (x : ℝ) : u.inv.L * (u.L * x) = x := mul_back x rfl u.L_ne
theorem back_arrL (f : ℕ → ℝ) : arr u.inv.L (arr u.L f) = f := arr_back f rfl u.L_ne
theorem back_arr2 (f : ℕ → ℝ) : arr (u.inv.L ^ 2) (arr (u.L ^ 2) f) = f := arr_back f (u.pow_L 2) (u.powL_ne 2)
theorem back_arr3 (f : ℕ → ℝ) : arr (u.inv.L ^ 3) (arr (u.L ^ 3) f) = f := arr_back f (u.pow_L 3) (u.powL_ne 3)
theorem back_dis (f : ℕ → ℝ) : arr u.inv.dis (arr u.dis f) = f := arr_back f u.dis_inv u.dis_ne
theorem back_con (f : ℕ → ℝ) : arr u.inv.con (arr u.con f) = f := arr_back f u.con_inv u.con_ne
theorem back_vel (f : ℕ → ℝ) : arr u.inv.vel (arr u.vel f) = f := arr_back f u.vel_inv u.vel_ne

theorem rough_back (k : ℤ) (n : ℝ) : u.inv.rough k (u.rough k n) = n := by
  have hL := u.L_ne
  have hw := u.w_ne
  unfold rough
  split_ifs
  · have := (Real.rpow_pos_of_pos u.hL (1 / 3 : ℝ)).ne'
    simp only [inv, Real.inv_rpow u.hL.le, inv_inv]
    field_simp
  · have := (Real.rpow_pos_of_pos u.hL (0.37 : ℝ)).ne'
    simp only [inv, Real.inv_rpow u.hL.le]
    field_simp
  · exact u.back_L n

theorem orifice_back (o : Orifice) : u.inv.orifice (u.orifice o) = o := by
  simp only [orifice, back_L]

theorem weir_back (x : Weir) : u.inv.weir (u.weir x) = x := by
  have hs : √u.inv.L * u.inv.w = (√u.L * u.w)⁻¹ := by simp only [inv, Real.sqrt_inv]; rw [mul_inv]
  have h : ∀ c : ℝ, √u.inv.L * u.inv.w * (√u.L * u.w * c) = c := fun c =>
    mul_back c hs (mul_pos (Real.sqrt_pos.mpr u.hL) u.hw).ne'
  simp only [weir, back_L, h]

theorem pump_back (p : Pump) : u.inv.pump (u.pump p) = p := by
  have h : u.inv.L * (u.inv.dis ^ p.c)⁻¹ * (u.L * (u.dis ^ p.c)⁻¹ * p.b) = p.b := by
    have h1 := (Real.rpow_pos_of_pos u.dis_pos p.c).ne'
    have h2 := u.L_ne
    rw [dis_inv, Real.inv_rpow u.dis_pos.le]
    simp only [inv]
    field_simp
  simp only [pump, back_L, h]

theorem model_back (m : Model) : u.inv.model (u.model m) = m := by
  have hg : u.inv.acc * (u.acc * m.g) = m.g := mul_back _ u.acc_inv u.acc_pos.ne'
  simp only [model, back_arrL, back_arr2, back_L, hg, rough_back, orifice_back, weir_back, pump_back]

theorem gp_back (s : Shape) (p : GP) : u.inv.gp s (u.gp s p) = p := by
  cases s <;> simp only [gp, back_L]

theorem sect_back (s : Section) : u.inv.sect (u.sect s) = s := by
  cases s <;> simp only [sect, gp_back, back_arrL, back_arr2]

theorem storage_back (s : Storage) : u.inv.storage (u.storage s) = s := by
  cases s with
  | functional a b c =>
    have h1 := (Real.rpow_pos_of_pos u.hL b).ne'
    have h2 := u.L_ne
    simp only [storage, inv, Real.inv_rpow u.hL.le, Storage.functional.injEq, true_and]
    constructor <;> field_simp
  | tabular n hs As Vs => simp only [storage, back_arrL, back_arr2, back_arr3]

theorem plan_back (P : Plan) : u.inv.plan (u.plan P) = P := by
  simp only [plan, sect_back, storage_back, gp_back]

theorem hyd_back (s : Hyd) : u.inv.hyd (u.hyd s) = s := by
  simp only [hyd, back_arrL, back_dis]

theorem inputs_back (inp : Inputs) : u.inv.inputs (u.inputs inp) = inp := by
  rcases inp with ⟨dt, hb, _⟩
  have h : u.inv.w⁻¹ * (u.w⁻¹ * dt) = dt := mul_back dt (by simp [inv]) (inv_ne_zero u.w_ne)
  cases hb <;> simp only [inputs, back_dis, h, Option.map_none, Option.map_some, back_arrL]

theorem lin_back (l : Lin) : u.inv.lin (u.lin l) = l := by
  simp only [lin, mul_back _ u.con_inv u.con_ne, mul_back _ u.dis_inv u.dis_ne]

theorem mat_back (bc : ℕ → Bool) (A : ℕ → ℕ → ℝ) : u.inv.mat bc (u.mat bc A) = A := by
  funext r c
  simp only [mat]
  cases bc r
  · exact mul_back _ u.con_inv u.con_ne
  · rfl

theorem obj_back (bc : ℕ → Bool) (o : Obj) : u.inv.obj bc (u.obj bc o) = o := by
  simp only [obj, hyd_back, work, mats, mat_back, fwd, bwd, back_vel, back_con, back_dis, lin_back, hidden, back_arr2]

theorem call_back (q : Bool × Inputs) : u.inv.call (u.call q) = q := by
  simp only [call, inputs_back]

theorem inv_inv' : u.inv.inv = u := by simp only [inv, inv_inv]

theorem Similar.back {m : Model} {P : Plan} (s : u.Similar m P) : u.inv.Similar (u.model m) (u.plan P) := by
  refine ⟨s.friction, fun p => s.pumps p, fun i => ?_, fun p h1 h2 => ?_⟩
  · have h := s.sec i
    show (u.sect (P.sec i)).Upright
    cases hs : P.sec i with
    | regular sh p =>
      rw [hs] at h
      cases sh <;> first | exact trivial | exact mul_nonneg u.hL.le h
    | irregular => exact trivial
  · have h := s.ell (u.inv.gp .elliptical p) (u.inv.L * h1) (u.inv.L * h2)
    have e : ∀ x, u.L * (u.inv.L * x) = x := fun x => mul_inv_cancel_left₀ u.L_ne x
    have eg : u.gp .elliptical (u.inv.gp .elliptical p) = p := by
      have := u.inv.gp_back .elliptical p
      rwa [inv_inv'] at this
    rw [e, e, eg] at h
    show P.ell _ _ _ = u.inv.L * P.ell p h1 h2
    rw [h]
    exact (u.back_L _).symm

theorem history_sc {m : Model} {P : Plan} (s : u.Similar m P) (l : List (Bool × Inputs)) {o o1 : Obj}
    (h : History m P l o o1) :
    History (u.model m) (u.plan P) (l.map u.call) (u.obj m.bc o) (u.obj m.bc o1) := by
  induction l generalizing o with
  | nil => exact congrArg (u.obj m.bc) h
  | cons q rest ih =>
    obtain ⟨o2, h2, h⟩ := h
    exact ⟨_, u.call_sc s h2, ih h⟩

end Scale

variable {m : Model} {P : Plan}

/-! ### C120 -/

/-- The wetted arc of an ellipse is a length. -/
theorem ellOf_scale (u : Scale) : u.EllLike ellOf := by
  intro p h1 h2
  simp only [ellOf, ellipticalPe, Scale.gp, u.depth_sc]
  have e1 : (u.L * Geometry.depth h1 h2 p.g1 - u.L * p.g1 / 2) / (u.L * p.g1 / 2) =
      (Geometry.depth h1 h2 p.g1 - p.g1 / 2) / (p.g1 / 2) := by
    rw [mul_div_assoc, ← mul_sub, mul_div_mul_left _ _ u.L_ne]
  have e2 : (u.L * p.g2 / 2) ^ 2 / (u.L * p.g1 / 2) ^ 2 = (p.g2 / 2) ^ 2 / (p.g1 / 2) ^ 2 := by
    rw [← div_pow, ← div_pow, mul_div_assoc, mul_div_assoc u.L p.g1, mul_div_mul_left _ _ u.L_ne]
  rw [e1, e2]; ring

/-- **C120.** A history of calls is possible exactly when it is possible at the other scale, with the results
at the other scale. -/
theorem C120_history (u : Scale) (s : u.Similar m P) (l : List (Bool × Inputs)) {o o1 : Obj} :
    History m P l o o1 ↔
      History (u.model m) (u.plan P) (l.map u.call) (u.obj m.bc o) (u.obj m.bc o1) := by
  refine ⟨u.history_sc s l, fun h => ?_⟩
  have h := u.inv.history_sc (Scale.Similar.back u s) _ h
  have e : (u.model m).bc = m.bc := rfl
  simpa only [u.model_back, u.plan_back, List.map_map, Function.comp_def, u.call_back, List.map_id', e, u.obj_back] using h

/-- Gravity is a constant of the code (`g=9.81`, nsuperlink.py 2034 and others). Froude's law is the one that
leaves it alone. -/
theorem C120_froude_law (u : Scale) : u.acc = 1 ↔ u = Scale.froude u.L u.hL := by
  have hs := Real.sqrt_pos.mpr u.hL
  constructor
  · intro h
    have hw : u.w = (√u.L)⁻¹ := by
      have h2 : (√u.L * u.w) ^ 2 = 1 := by
        rw [mul_pow, Real.sq_sqrt u.hL.le]; exact h
      have h3 : √u.L * u.w = 1 := by
        have := mul_pos hs u.hw
        nlinarith
      exact eq_inv_of_mul_eq_one_right h3
    rcases u with ⟨L, w, hL, hw'⟩
    simp only [Scale.froude] at hw ⊢
    congr
  · intro h
    rw [h]
    simp only [Scale.acc, Scale.froude, inv_pow, Real.sq_sqrt u.hL.le]
    exact mul_inv_cancel₀ u.L_ne

/-- Flows grow like `L^(5/2)`. -/
theorem froude_dis (L : ℝ) (hL : 0 < L) : (Scale.froude L hL).dis = L ^ (5 / 2 : ℝ) := by
  have hs := (Real.sqrt_pos.mpr hL).ne'
  simp only [Scale.dis, Scale.froude]
  rw [Real.sqrt_eq_rpow, ← Real.rpow_neg hL.le, ← Real.rpow_natCast, ← Real.rpow_add hL]
  norm_num

/-- **C120 (Froude similarity).** A model `L` times as large, with the same gravity, run with steps `√L` times as
long and flows `L^(5/2)` times as large: whatever object it reaches has heads and depths `L` times as
large, flows `L^(5/2)` times as large, and the same end switches. -/
theorem C120_froude_similarity (L : ℝ) (hL : 0 < L) (sd : Sound m P) (s : (Scale.froude L hL).Similar m P)
    (l : List (Bool × Inputs)) (hl : ∀ q ∈ l, GoodInputs m P q.2) {o o1 o2 : Obj} (go : GoodObj m o)
    (h : History m P l o o1)
    (h2 : History ((Scale.froude L hL).model m) ((Scale.froude L hL).plan P) (l.map (Scale.froude L hL).call)
      ((Scale.froude L hL).obj m.bc o) o2) :
    ((Scale.froude L hL).model m).g = m.g ∧
    (∀ q ∈ l, ((Scale.froude L hL).call q).2.dt = √L * q.2.dt) ∧
    (∀ j, j < m.M → o2.cur.H j = L * o1.cur.H j) ∧ (∀ I, o2.cur.h I = L * o1.cur.h I) ∧
    (∀ i, o2.cur.Q i = L ^ (5 / 2 : ℝ) * o1.cur.Q i) ∧
    (∀ k, k < m.ix.NK → o2.cur.Qu k = L ^ (5 / 2 : ℝ) * o1.cur.Qu k ∧ o2.cur.Qd k = L ^ (5 / 2 : ℝ) * o1.cur.Qd k) ∧
    (∀ k, k < m.n_o → o2.cur.Qo k = L ^ (5 / 2 : ℝ) * o1.cur.Qo k) ∧
    (∀ k, k < m.n_w → o2.cur.Qw k = L ^ (5 / 2 : ℝ) * o1.cur.Qw k) ∧
    (∀ k, k < m.n_p → o2.cur.Qp k = L ^ (5 / 2 : ℝ) * o1.cur.Qp k) ∧
    o2.hid.thu = o1.hid.thu ∧ o2.hid.thd = o1.hid.thd := by
  set u := Scale.froude L hL with hu
  have hacc : u.acc = 1 := (C120_froude_law u).mpr rfl
  have hd : u.dis = L ^ (5 / 2 : ℝ) := froude_dis L hL
  have e2 : o2 = u.obj m.bc (u.inv.obj m.bc o2) := by
    have := u.inv.obj_back m.bc o2
    rw [u.inv_inv'] at this
    exact this.symm
  rw [e2] at h2
  have h1 := (C120_history u s l).mpr h2
  have a := C105_unique sd l hl go h1 h
  set o3 := u.inv.obj m.bc o2
  have hH : ∀ j, o2.cur.H j = L * o3.cur.H j := fun j => by rw [e2]; rfl
  have hh : ∀ j, o2.cur.h j = L * o3.cur.h j := fun j => by rw [e2]; rfl
  have hQ : ∀ j, o2.cur.Q j = u.dis * o3.cur.Q j := fun j => by rw [e2]; rfl
  have hQu : ∀ j, o2.cur.Qu j = u.dis * o3.cur.Qu j := fun j => by rw [e2]; rfl
  have hQd : ∀ j, o2.cur.Qd j = u.dis * o3.cur.Qd j := fun j => by rw [e2]; rfl
  have hQo : ∀ j, o2.cur.Qo j = u.dis * o3.cur.Qo j := fun j => by rw [e2]; rfl
  have hQw : ∀ j, o2.cur.Qw j = u.dis * o3.cur.Qw j := fun j => by rw [e2]; rfl
  have hQp : ∀ j, o2.cur.Qp j = u.dis * o3.cur.Qp j := fun j => by rw [e2]; rfl
  have ht : o2.hid.thu = o3.hid.thu := by rw [e2]; rfl
  have ht' : o2.hid.thd = o3.hid.thd := by rw [e2]; rfl
  rw [hd] at hQ hQu hQd hQo hQw hQp
  refine ⟨?_, fun q _ => ?_, fun j hj => ?_, fun I => ?_, fun i => ?_, fun k hk => ⟨?_, ?_⟩, fun k hk => ?_, fun k hk => ?_,
    fun k hk => ?_, ?_, ?_⟩
  · show u.acc * m.g = m.g
    rw [hacc, one_mul]
  · show (√L)⁻¹⁻¹ * q.2.dt = _
    rw [inv_inv]
  · rw [hH, a.cur.H j hj]
  · rw [hh, a.cur.h]
  · rw [hQ, a.cur.Q]
  · rw [hQu, a.cur.Qu k hk]
  · rw [hQd, a.cur.Qd k hk]
  · rw [hQo, a.cur.Qo k hk]
  · rw [hQw, a.cur.Qw k hk]
  · rw [hQp, a.cur.Qp k hk]
  · rw [ht, a.hid]
  · rw [ht', a.hid]

/-! ### Darcy and Weisbach -/

/-- The friction term by Darcy and Weisbach, with `r` the Reynolds number part of the friction factor. -/
theorem darcy_eq {Q dx A R n g r : ℝ} (hQ : 0 < Q) (hA : 0 < A) (hR : 0 < R)
    (hr : r = 5.74 / (Q / A * 4 * R / nuVisc) ^ (0.9 : ℝ)) :
    frictionSlope Q dx A R n 2 g = (pyDiv 0.25 ((Real.logb 10 (n / (3.7 * 4 * R) + r)) ^ 2)).bind
      fun f => .ok (0.01274 * g * f * Q * dx / (A * R)) := by
  have hν : (0 : ℝ) < nuVisc := by unfold nuVisc; norm_num
  have hRe : 0 < Q / A * 4 * R / nuVisc := by positivity
  have hp := (Real.rpow_pos_of_pos hRe (0.9 : ℝ)).ne'
  unfold frictionSlope
  rw [if_pos hA, if_neg (by norm_num), if_neg (by norm_num), if_pos rfl, abs_of_pos hQ]
  have d1 : pyDiv Q A = .ok (Q / A) := if_neg hA.ne'
  have d2 : pyDiv n (3.7 * 4 * R) = .ok (n / (3.7 * 4 * R)) := if_neg (by positivity)
  have d3 : pyDiv 5.74 ((Q / A * 4 * R / nuVisc) ^ (0.9 : ℝ)) = .ok r := by
    rw [hr]; exact if_neg hp
  have d4 : ∀ x, pyDiv x (A * R) = .ok (x / (A * R)) := fun x => if_neg (mul_pos hA hR).ne'
  have ob : ∀ {α β : Type} (a : α) (k : α → Except PyErr β), (Except.ok a >>= k) = k a := fun _ _ => rfl
  rw [d1, ob]
  simp only
  rw [d2, ob, d3, ob]
  simp only [d4]
  rfl

theorem logb_sq_eq {x y : ℝ} (hx : 0 < x) (hy : 0 < y) (h : Real.logb 10 x ^ 2 = Real.logb 10 y ^ 2) :
    x = y ∨ x * y = 1 := by
  have hl : Real.log 10 ≠ 0 := (Real.log_pos (by norm_num)).ne'
  have inj : ∀ {a b : ℝ}, 0 < a → 0 < b → Real.logb 10 a = Real.logb 10 b → a = b := fun ha hb h => by
    unfold Real.logb at h
    exact Real.log_injOn_pos ha hb ((div_left_inj' hl).mp h)
  rcases sq_eq_sq_iff_eq_or_eq_neg.mp h with h | h
  · exact .inl (inj hx hy h)
  · right
    rw [← Real.logb_inv] at h
    rw [inj hx (inv_pos.mpr hy) h, inv_mul_cancel₀ hy.ne']

/-- **C120 (the exception).** Friction by Darcy and Weisbach has no similar model at another scale: whatever
roughness is chosen, some flow is resisted differently, because the viscosity does not change with the
scale. -/
theorem C120_darcy_weisbach (L : ℝ) (hL : 0 < L) (h1 : L ≠ 1) {dx A R n n' g : ℝ} (hdx : 0 < dx) (hA : 0 < A)
    (hR : 0 < R) (hg : 0 < g) (hn : 0 ≤ n) (hn' : 0 ≤ n') :
    ∃ Q, 0 < Q ∧
      frictionSlope ((Scale.froude L hL).dis * Q) (L * dx) (L ^ 2 * A) (L * R) n' 2 g ≠
        (frictionSlope Q dx A R n 2 g).map ((Scale.froude L hL).vel * ·) := by
  by_contra hall
  push Not at hall
  set u := Scale.froude L hL with hu
  have huL : u.L = L := rfl
  have hν : (0 : ℝ) < nuVisc := by unfold nuVisc; norm_num
  have hc : 0 < u.con := u.con_pos
  have hc1 : u.con ≠ 1 := by
    intro h
    have hs := Real.sqrt_pos.mpr hL
    have e : L * √L = 1 := by
      have : u.con = L ^ 2 * (√L)⁻¹ := rfl
      rw [this] at h
      have h' : L ^ 2 = √L := by field_simp at h; exact h
      have h2 := Real.sq_sqrt hL.le
      nlinarith [mul_pos hL hs]
    have h2 := Real.sq_sqrt hL.le
    have h3 : L ^ 3 = 1 := by
      have : (L * √L) ^ 2 = L ^ 3 := by rw [mul_pow, h2]; ring
      rw [← this, e, one_pow]
    exact h1 (by nlinarith [sq_nonneg (L + 1), sq_nonneg (L - 1)])
  set c := (u.con ^ (0.9 : ℝ))⁻¹ with hcdef
  have hcp : 0 < c := inv_pos.mpr (Real.rpow_pos_of_pos hc _)
  have hcne : c ≠ 1 := by
    intro h
    have h2 : u.con ^ (0.9 : ℝ) = 1 := inv_eq_one.mp h
    have h3 := congrArg Real.log h2
    rw [Real.log_rpow hc, Real.log_one] at h3
    have h4 : Real.log u.con = 0 := by linarith [mul_eq_zero.mp h3 |>.resolve_left (by norm_num)]
    exact hc1 (Real.eq_one_of_pos_of_log_eq_zero hc h4)
  -- every value of the Reynolds number part is attained
  have key : ∀ r : ℝ, 0 < r → n' / (3.7 * 4 * (L * R)) + c * r = n / (3.7 * 4 * R) + r ∨
      (n' / (3.7 * 4 * (L * R)) + c * r) * (n / (3.7 * 4 * R) + r) = 1 := by
    intro r hr
    set Re := (5.74 / r) ^ ((0.9 : ℝ)⁻¹) with hRe
    have hRe0 : 0 < Re := Real.rpow_pos_of_pos (by positivity) _
    have hpow : Re ^ (0.9 : ℝ) = 5.74 / r := by
      rw [hRe, ← Real.rpow_mul (by positivity), inv_mul_cancel₀ (by norm_num), Real.rpow_one]
    set Q := Re * nuVisc * A / (4 * R) with hQdef
    have hQ : 0 < Q := by positivity
    have e1 : Q / A * 4 * R / nuVisc = Re := by rw [hQdef]; field_simp
    have e2 : u.dis * Q / (L ^ 2 * A) * 4 * (L * R) / nuVisc = u.con * Re := by
      rw [← e1, u.dis_eq, huL]; field_simp
    have r1 : r = 5.74 / (Q / A * 4 * R / nuVisc) ^ (0.9 : ℝ) := by
      rw [e1, hpow]; field_simp
    have r2 : c * r = 5.74 / (u.dis * Q / (L ^ 2 * A) * 4 * (L * R) / nuVisc) ^ (0.9 : ℝ) := by
      rw [e2, Real.mul_rpow hc.le hRe0.le, hpow, hcdef]
      have := (Real.rpow_pos_of_pos hc (0.9 : ℝ)).ne'
      field_simp
    have h := hall Q hQ
    rw [darcy_eq hQ hA hR r1, darcy_eq (mul_pos u.dis_pos hQ) (by positivity) (by positivity) r2] at h
    have hx : 0 < n' / (3.7 * 4 * (L * R)) + c * r := by positivity
    have hy : 0 < n / (3.7 * 4 * R) + r := by positivity
    refine logb_sq_eq hx hy ?_
    set X := Real.logb 10 (n' / (3.7 * 4 * (L * R)) + c * r) ^ 2
    set Y := Real.logb 10 (n / (3.7 * 4 * R) + r) ^ 2
    by_cases hX : X = 0 <;> by_cases hY : Y = 0
    · rw [hX, hY]
    · simp only [pyDiv, if_pos hX, if_neg hY, Except.bind, Except.map] at h
      cases h
    · simp only [pyDiv, if_neg hX, if_pos hY, Except.bind, Except.map] at h
      cases h
    · simp only [pyDiv, if_neg hX, if_neg hY, Except.bind, Except.map, Except.ok.injEq] at h
      have hv : u.dis = u.L ^ 2 * u.vel := by unfold Scale.dis Scale.vel; ring
      have hvp := u.vel_pos
      rw [hv, huL] at h
      field_simp at h
      linarith
  -- two of three flows fall in the same case
  have p1 : ∀ r s : ℝ, r < s → 0 < r → n' / (3.7 * 4 * (L * R)) + c * r = n / (3.7 * 4 * R) + r →
      n' / (3.7 * 4 * (L * R)) + c * s = n / (3.7 * 4 * R) + s → False := fun r s hrs _ h1 h2 => by
    have : (c - 1) * (s - r) = 0 := by linarith
    rcases mul_eq_zero.mp this with h | h
    · exact hcne (by linarith)
    · linarith
  have p2 : ∀ r s : ℝ, r < s → 0 < r → (n' / (3.7 * 4 * (L * R)) + c * r) * (n / (3.7 * 4 * R) + r) = 1 →
      (n' / (3.7 * 4 * (L * R)) + c * s) * (n / (3.7 * 4 * R) + s) = 1 → False := fun r s hrs hr h1 h2 => by
    have a0 : 0 ≤ n' / (3.7 * 4 * (L * R)) := by positivity
    have b0 : 0 ≤ n / (3.7 * 4 * R) := by positivity
    have hcr := mul_pos hcp hr
    have hcs := mul_lt_mul_of_pos_left hrs hcp
    have : (n' / (3.7 * 4 * (L * R)) + c * r) * (n / (3.7 * 4 * R) + r) <
        (n' / (3.7 * 4 * (L * R)) + c * s) * (n / (3.7 * 4 * R) + s) :=
      mul_lt_mul'' (by linarith) (by linarith) (by linarith) (by linarith)
    linarith
  rcases key 1 (by norm_num) with k1 | k1 <;> rcases key 2 (by norm_num) with k2 | k2 <;>
    rcases key 3 (by norm_num) with k3 | k3
  · exact p1 1 2 (by norm_num) (by norm_num) k1 k2
  · exact p1 1 2 (by norm_num) (by norm_num) k1 k2
  · exact p1 1 3 (by norm_num) (by norm_num) k1 k3
  · exact p2 2 3 (by norm_num) (by norm_num) k2 k3
  · exact p1 2 3 (by norm_num) (by norm_num) k2 k3
  · exact p2 1 3 (by norm_num) (by norm_num) k1 k3
  · exact p2 1 2 (by norm_num) (by norm_num) k1 k2
  · exact p2 1 2 (by norm_num) (by norm_num) k1 k2

/-! ### A case -/

/-- The pipe of `RetryProps` with an elliptical section. At four times the size, times are twice as long and flows
32 times as large. -/
noncomputable def scPlan : Plan := { rePlan with ell := ellOf, sec := fun _ => .regular .elliptical ⟨2, 3, 0, 0, 0, 0, 0⟩ }

theorem scSound : Sound reModel scPlan := by
  have h := reSound
  exact ⟨h.cons, h.g_pos, h.md_pos, h.n_pos, h.dx_pos, h.C_nonneg, h.AS_nonneg, h.dxu, h.dxd, h.Cu, h.Cd, h.b_p,
    h.friction, h.eps_pos, fun _ _ => usable_ellOf (by simp [Wettable, Valid]) _, h.storage, h.damp⟩

theorem scSimilar (u : Scale) : u.Similar reModel scPlan :=
  ⟨fun _ _ => (by decide : (0 : ℤ) ≠ 2), fun _ => one_ne_zero, fun _ => trivial, ellOf_scale u⟩

example : ∃ o o2, History reModel scPlan [(true, reInp 3), (false, reInp 4)] reStart o ∧
    History ((Scale.froude 4 (by norm_num)).model reModel) ((Scale.froude 4 (by norm_num)).plan scPlan)
      ([(true, reInp 3), (false, reInp 4)].map (Scale.froude 4 (by norm_num)).call)
      ((Scale.froude 4 (by norm_num)).obj reModel.bc reStart) o2 ∧
    o2.cur.H 0 = 4 * o.cur.H 0 := by
  obtain ⟨o, h, -⟩ := C105_every_history_succeeds scSound [(true, reInp 3), (false, reInp 4)] (fun q hq => by
    simp only [List.mem_cons, List.not_mem_nil, or_false] at hq
    rcases hq with rfl | rfl
    · exact ⟨(reGood 3).dt_pos, (reGood 3).u_p, (reGood 3).u_o⟩
    · exact ⟨(reGood 4).dt_pos, (reGood 4).u_p, (reGood 4).u_o⟩) reStart_sym.good
  exact ⟨o, _, h, (C120_history _ (scSimilar _) _).mp h, rfl⟩

end Pipedream.Step
