import Mathlib.Analysis.Calculus.Deriv.MeanValue
import Mathlib.Analysis.Calculus.Deriv.Inverse
import Mathlib.Analysis.SpecialFunctions.Log.Deriv
import Verif.InfiltrationReturnsProps

/-!
# C145: infiltration follows the Green–Ampt law

The law is a differential equation: with water on offer at the rate `ia`, cumulative infiltration grows at
the rate `ia` as long as the soil can take that much and at its capacity `Ks (1 + psi·theta_d / F)` after
that. Nothing in this statement mentions the integrated equation, ponding times or root finders.
-/

namespace Pipedream.Infiltration

open Pipedream.Link Pipedream.Root Set

/-! ### The law -/

/-- The Green–Ampt infiltration rate at cumulative infiltration `y`: the supply `ia`, limited by the capacity
`Ks (y + S) / y` (unlimited when nothing has infiltrated). -/
noncomputable def lawRate (Ks S ia y : ℝ) : ℝ := if ia * y ≤ Ks * (y + S) then ia else Ks * (y + S) / y

/-- `y` is the cumulative infiltration over a time `dt` with supply `ia` under the law, starting from `F`. -/
structure Obeys (Ks S ia F dt : ℝ) (y : ℝ → ℝ) : Prop where
  start : y 0 = F
  cont : ContinuousOn y (Icc 0 dt)
  law : ∀ t ∈ Ioo 0 dt, HasDerivAt y (lawRate Ks S ia (y t)) t

/-- The law is the smaller of supply and capacity. -/
theorem lawRate_eq_min {Ks S ia y : ℝ} (hy : 0 < y) : lawRate Ks S ia y = min ia (Ks * (1 + S / y)) := by
  have e : Ks * (1 + S / y) = Ks * (y + S) / y := by field_simp
  unfold lawRate
  rw [e]
  split_ifs with h
  · rw [min_eq_left]; rwa [le_div_iff₀ hy]
  · rw [min_eq_right]; rw [div_le_iff₀ hy]; exact (not_le.mp h).le

theorem lawRate_nonneg {Ks S ia : ℝ} (hK : 0 < Ks) (hS : 0 < S) (hia : 0 ≤ ia) (y : ℝ) :
    0 ≤ lawRate Ks S ia y := by
  unfold lawRate
  split_ifs with h
  · exact hia
  · push Not at h
    rcases lt_trichotomy y 0 with hy | rfl | hy
    · have h1 : ia * y ≤ 0 := mul_nonpos_of_nonneg_of_nonpos hia hy.le
      exact div_nonneg_of_nonpos (by linarith) hy.le
    · nlinarith
    · positivity

theorem lawRate_le {Ks S ia y : ℝ} (hK : 0 < Ks) (hS : 0 < S) (hy : 0 ≤ y) : lawRate Ks S ia y ≤ ia := by
  unfold lawRate
  split_ifs with h
  · exact le_rfl
  · push Not at h
    rcases hy.eq_or_lt with rfl | hy
    · nlinarith
    · rw [div_le_iff₀ hy]; exact h.le

/-- The capacity decreases with the water already infiltrated, so the rate does. -/
theorem lawRate_anti {Ks S ia x y : ℝ} (hK : 0 < Ks) (hS : 0 < S) (hx : 0 ≤ x) (hxy : x ≤ y) :
    lawRate Ks S ia y ≤ lawRate Ks S ia x := by
  rcases hx.eq_or_lt with rfl | hx
  · have e : lawRate Ks S ia 0 = ia := by
      unfold lawRate; rw [if_pos]; rw [mul_zero, zero_add]; positivity
    rw [e]; exact lawRate_le hK hS hxy
  · rw [lawRate_eq_min hx, lawRate_eq_min (hx.trans_le hxy)]
    refine min_le_min le_rfl (mul_le_mul_of_nonneg_left ?_ hK.le)
    have := div_le_div_of_nonneg_left hS.le hx hxy
    linarith

section calculus

variable {Ks S ia F dt : ℝ} {y : ℝ → ℝ}

theorem slope_const {g : ℝ → ℝ} {c T : ℝ} (hT : 0 ≤ T) (hc : ContinuousOn g (Icc 0 T))
    (hd : ∀ t ∈ Ioo 0 T, HasDerivAt g c t) : g T = g 0 + c * T := by
  rcases hT.eq_or_lt with rfl | hT
  · ring
  · obtain ⟨_, -, h⟩ := exists_hasDerivAt_eq_slope g (fun _ => c) hT hc hd
    rw [sub_zero, eq_div_iff hT.ne'] at h
    linarith

theorem slope_le {g g' : ℝ → ℝ} {c T : ℝ} (hT : 0 ≤ T) (hc : ContinuousOn g (Icc 0 T))
    (hd : ∀ t ∈ Ioo 0 T, HasDerivAt g (g' t) t) (hle : ∀ t ∈ Ioo 0 T, g' t ≤ c) : g T ≤ g 0 + c * T := by
  rcases hT.eq_or_lt with rfl | hT
  · simp
  · obtain ⟨t, ht, h⟩ := exists_hasDerivAt_eq_slope g g' hT hc hd
    have := hle t ht
    rw [h, sub_zero, div_le_iff₀ hT] at this
    linarith

theorem Obeys.sub (h : Obeys Ks S ia F dt y) {t : ℝ} (ht : t ≤ dt) : Obeys Ks S ia F t y :=
  ⟨h.start, h.cont.mono (Icc_subset_Icc_right ht), fun u hu => h.law u ⟨hu.1, hu.2.trans_le ht⟩⟩

theorem Obeys.ge (hK : 0 < Ks) (hS : 0 < S) (hia : 0 ≤ ia) (h : Obeys Ks S ia F dt y) {t : ℝ}
    (ht : t ∈ Icc 0 dt) : F ≤ y t := by
  have h' := h.sub ht.2
  have := slope_le (g := fun u => -y u) (g' := fun u => -lawRate Ks S ia (y u)) (c := 0) ht.1 h'.cont.neg
    (fun u hu => (h'.law u hu).neg) (fun u _ => neg_nonpos.mpr (lawRate_nonneg hK hS hia _))
  simp only [h.start] at this
  linarith

theorem Obeys.le (hK : 0 < Ks) (hS : 0 < S) (hia : 0 ≤ ia) (hF : 0 ≤ F) (hdt : 0 ≤ dt)
    (h : Obeys Ks S ia F dt y) : y dt ≤ F + ia * dt := by
  have := slope_le hdt h.cont h.law (c := ia) (fun u hu =>
    lawRate_le hK hS (hF.trans (h.ge hK hS hia ⟨hu.1.le, hu.2.le⟩)))
  rwa [h.start] at this

/-- Rain up to the conductivity: everything infiltrates. -/
theorem Obeys.low (hK : 0 < Ks) (hS : 0 < S) (hia : 0 ≤ ia) (hF : 0 ≤ F) (hdt : 0 ≤ dt) (hle : ia ≤ Ks)
    (h : Obeys Ks S ia F dt y) : y dt = F + ia * dt := by
  rw [← h.start]
  refine slope_const hdt h.cont fun t ht => ?_
  have hy := hF.trans (h.ge hK hS hia ⟨ht.1.le, ht.2.le⟩)
  have := h.law t ht
  rwa [lawRate, if_pos (by nlinarith)] at this

/-- The function whose growth is steady at capacity. -/
noncomputable def capH (S y : ℝ) : ℝ := y - S * Real.log (y + S)

theorem capH_deriv (hS : 0 < S) {y : ℝ} (hy : 0 ≤ y) : HasDerivAt (capH S) (y / (y + S)) y := by
  have h0 : y + S ≠ 0 := by positivity
  have h1 : HasDerivAt (fun z : ℝ => z + S) 1 y := (hasDerivAt_id y).add_const S
  have h2 := (hasDerivAt_id y).sub ((h1.log h0).const_mul S)
  have e : y / (y + S) = 1 - S * (1 / (y + S)) := by field_simp; ring
  rw [e]; exact h2

/-- Time taken to get from the ponding volume to `y` (negative below it). -/
noncomputable def travel (Ks S ia y : ℝ) : ℝ :=
  if y ≤ Ks * S / (ia - Ks) then (y - Ks * S / (ia - Ks)) / ia
  else (capH S y - capH S (Ks * S / (ia - Ks))) / Ks

theorem travel_hi {y : ℝ} (h : Ks * S / (ia - Ks) ≤ y) :
    travel Ks S ia y = (capH S y - capH S (Ks * S / (ia - Ks))) / Ks := by
  unfold travel
  split_ifs with hc
  · have : y = Ks * S / (ia - Ks) := le_antisymm hc h
    rw [this, sub_self, sub_self, zero_div, zero_div]
  · rfl

theorem travel_lo {y : ℝ} (h : y ≤ Ks * S / (ia - Ks)) :
    travel Ks S ia y = (y - Ks * S / (ia - Ks)) / ia := if_pos h

theorem supply_iff (hia : Ks < ia) {y : ℝ} : ia * y ≤ Ks * (y + S) ↔ y ≤ Ks * S / (ia - Ks) := by
  rw [le_div_iff₀ (by linarith)]
  constructor <;> intro h <;> linarith

theorem travel_deriv (hK : 0 < Ks) (hS : 0 < S) (hia : Ks < ia) {y : ℝ} (hy : 0 ≤ y) :
    HasDerivAt (travel Ks S ia) (1 / lawRate Ks S ia y) y := by
  have hia0 : 0 < ia := hK.trans hia
  have hd : 0 < ia - Ks := by linarith
  set Fs := Ks * S / (ia - Ks) with hFs
  have hFs0 : 0 < Fs := by positivity
  have hlow : ∀ z, HasDerivAt (fun z => (z - Fs) / ia) (1 / ia) z := fun z =>
    ((hasDerivAt_id z).sub_const Fs).div_const ia
  have hhigh : ∀ z, 0 ≤ z → HasDerivAt (fun z => (capH S z - capH S Fs) / Ks) (z / (z + S) / Ks) z :=
    fun z hz => ((capH_deriv hS hz).sub_const _).div_const Ks
  rcases lt_trichotomy y Fs with h | h | h
  · have hr : lawRate Ks S ia y = ia := if_pos ((supply_iff hia).mpr h.le)
    rw [hr]
    refine (hlow y).congr_of_eventuallyEq ?_
    filter_upwards [Iio_mem_nhds h] with z hz
    exact travel_lo (le_of_lt hz)
  · have hr : lawRate Ks S ia y = ia := if_pos ((supply_iff hia).mpr h.le)
    rw [hr, h]
    have e : Fs / (Fs + S) / Ks = 1 / ia := by
      rw [hFs]; field_simp; ring
    have h1 : HasDerivWithinAt (travel Ks S ia) (1 / ia) (Iic Fs) Fs :=
      (hlow Fs).hasDerivWithinAt.congr (fun z hz => travel_lo hz) (travel_lo le_rfl)
    have h2 : HasDerivWithinAt (travel Ks S ia) (1 / ia) (Ici Fs) Fs := by
      rw [← e]
      exact (hhigh Fs hFs0.le).hasDerivWithinAt.congr (fun z hz => travel_hi hz) (travel_hi le_rfl)
    have := h1.union h2
    rwa [Iic_union_Ici, hasDerivWithinAt_univ] at this
  · have hr : lawRate Ks S ia y = Ks * (y + S) / y := if_neg (fun hc => by
      rw [supply_iff hia] at hc; exact absurd hc (not_le.mpr h))
    have e : 1 / lawRate Ks S ia y = y / (y + S) / Ks := by
      rw [hr]
      have : 0 < y := hFs0.trans h
      field_simp
    rw [e]
    refine (hhigh y hy).congr_of_eventuallyEq ?_
    filter_upwards [Ioi_mem_nhds h] with z hz
    exact travel_hi (le_of_lt hz)

theorem lawRate_pos (hK : 0 < Ks) (hS : 0 < S) (hia : 0 < ia) {y : ℝ} (hy : 0 ≤ y) :
    0 < lawRate Ks S ia y := by
  unfold lawRate
  split_ifs with h
  · exact hia
  · rcases hy.eq_or_lt with rfl | hy
    · exact absurd (by rw [mul_zero, zero_add]; positivity) h
    · positivity

theorem travel_strictMono (hK : 0 < Ks) (hS : 0 < S) (hia : Ks < ia) :
    StrictMonoOn (travel Ks S ia) (Ici 0) := by
  refine strictMonoOn_of_hasDerivWithinAt_pos (convex_Ici 0) (f' := fun z => 1 / lawRate Ks S ia z)
    (fun z hz => (travel_deriv hK hS hia hz).continuousAt.continuousWithinAt) ?_ ?_
  · intro z hz
    exact (travel_deriv hK hS hia (interior_subset hz)).hasDerivWithinAt
  · intro z hz
    exact one_div_pos.mpr (lawRate_pos hK hS (hK.trans hia) (interior_subset hz))

/-- Under the law the travel time passes as time does. -/
theorem Obeys.travel (hK : 0 < Ks) (hS : 0 < S) (hia : Ks < ia) (hF : 0 ≤ F) (hdt : 0 ≤ dt)
    (h : Obeys Ks S ia F dt y) : Infiltration.travel Ks S ia (y dt) = Infiltration.travel Ks S ia F + dt := by
  have hy : ∀ t ∈ Icc 0 dt, 0 ≤ y t := fun t ht => hF.trans (h.ge hK hS (hK.trans hia).le ht)
  have := slope_const (g := fun t => Infiltration.travel Ks S ia (y t)) (c := 1) hdt
    (fun t ht => ((travel_deriv hK hS hia (hy t ht)).continuousAt.comp_continuousWithinAt (h.cont t ht)))
    (fun t ht => by
      have hyt := hy t ⟨ht.1.le, ht.2.le⟩
      have := (travel_deriv hK hS hia hyt).comp t (h.law t ht)
      rwa [one_div, inv_mul_cancel₀ (lawRate_pos hK hS (hK.trans hia) hyt).ne'] at this)
  simp only [h.start, one_mul] at this
  exact this

end calculus

/-! ### What the law amounts to -/

section exact

variable {p : Soil} {thd ia F dt : ℝ} {y : ℝ → ℝ}

theorem gaF_zero_iff (hp : p.Physical) {F1 r : ℝ} :
    gaF p thd F1 dt r = 0 ↔ capH (p.psi * thd) r = capH (p.psi * thd) F1 + p.Ks * dt := by
  unfold gaF capH
  rw [abs_of_pos hp.psi]
  constructor <;> intro h <;> linarith

theorem Fsat_eq (p : Soil) (ia thd : ℝ) : p.Ks * (p.psi * thd) / (ia - p.Ks) = Fsat p ia thd := by
  unfold Fsat; rw [mul_assoc]

/-- The surface is ponded from the beginning: the integrated equation. -/
theorem Obeys.ponded (hp : p.Physical) (hthd : 0 < thd) (hia : p.Ks < ia) (hdt : 0 ≤ dt)
    (hF : Fsat p ia thd ≤ F) (h : Obeys p.Ks (p.psi * thd) ia F dt y) : gaF p thd F dt (y dt) = 0 := by
  have hS := mul_pos hp.psi hthd
  have hF0 : 0 ≤ F := (Fsat_pos hp hia hthd).le.trans hF
  have hge := h.ge hp.Ks hS (hp.Ks.trans hia).le ⟨hdt, le_rfl⟩
  have ht := h.travel hp.Ks hS hia hF0 hdt
  rw [travel_hi (by rw [Fsat_eq]; exact hF.trans hge), travel_hi (by rw [Fsat_eq]; exact hF)] at ht
  rw [gaF_zero_iff hp]
  have hK := hp.Ks
  field_simp at ht
  linarith

/-- The surface does not pond: everything infiltrates. -/
theorem Obeys.dry (hp : p.Physical) (hthd : 0 < thd) (hia : p.Ks < ia) (hdt : 0 ≤ dt) (hF : 0 ≤ F)
    (hFs : F + ia * dt ≤ Fsat p ia thd) (h : Obeys p.Ks (p.psi * thd) ia F dt y) : y dt = F + ia * dt := by
  have hS := mul_pos hp.psi hthd
  have hia0 := hp.Ks.trans hia
  have hprod : 0 ≤ ia * dt := by positivity
  have ht := h.travel hp.Ks hS hia hF hdt
  have hge := h.ge hp.Ks hS hia0.le ⟨hdt, le_rfl⟩
  refine (travel_strictMono hp.Ks hS hia).injOn (hF.trans hge) (by simp only [mem_Ici]; linarith) ?_
  rw [ht, travel_lo (by rw [Fsat_eq]; linarith), travel_lo (by rw [Fsat_eq]; linarith)]
  field_simp
  ring

/-- The surface ponds on the way: the integrated equation from the ponding volume and time. -/
theorem Obeys.ponding (hp : p.Physical) (hthd : 0 < thd) (hia : p.Ks < ia) (hdt : 0 ≤ dt) (hF : 0 ≤ F)
    (hlt : F ≤ Fsat p ia thd) (hFs : Fsat p ia thd ≤ F + ia * dt)
    (h : Obeys p.Ks (p.psi * thd) ia F dt y) :
    Fsat p ia thd ≤ y dt ∧ gaF p thd (Fsat p ia thd) (dt - (Fsat p ia thd - F) / ia) (y dt) = 0 := by
  have hS := mul_pos hp.psi hthd
  have hia0 := hp.Ks.trans hia
  have hFs0 := Fsat_pos hp hia hthd
  have hge := h.ge hp.Ks hS hia0.le ⟨hdt, le_rfl⟩
  have ht := h.travel hp.Ks hS hia hF hdt
  rw [travel_lo (y := F) (by rw [Fsat_eq]; exact hlt), Fsat_eq] at ht
  have hle : Fsat p ia thd ≤ y dt := by
    rw [← (travel_strictMono hp.Ks hS hia).le_iff_le hFs0.le (hF.trans hge), ht,
      travel_lo (by rw [Fsat_eq]), Fsat_eq, sub_self, zero_div]
    have : (Fsat p ia thd - F) / ia ≤ dt := by rw [div_le_iff₀ hia0]; linarith
    have e : (F - Fsat p ia thd) / ia = -((Fsat p ia thd - F) / ia) := by rw [← neg_div, neg_sub]
    rw [e]; linarith
  refine ⟨hle, ?_⟩
  rw [travel_hi (by rw [Fsat_eq]; exact hle), Fsat_eq] at ht
  rw [gaF_zero_iff hp]
  have hK := hp.Ks
  field_simp at ht ⊢
  linarith

/-- **C145 (the law has a solution).** For every soil, supply, starting point and duration. -/
theorem C145_exists (hp : p.Physical) (hthd : 0 < thd) (hia : 0 ≤ ia) (hF : 0 ≤ F) (dt : ℝ) :
    ∃ y, Obeys p.Ks (p.psi * thd) ia F dt y := by
  have hS := mul_pos hp.psi hthd
  have hK := hp.Ks
  rcases le_or_gt ia p.Ks with hle | hlt
  · refine ⟨fun t => F + ia * t, by simp, by fun_prop, fun t ht => ?_⟩
    have hy : 0 ≤ F + ia * t := add_nonneg hF (mul_nonneg hia ht.1.le)
    rw [lawRate, if_pos (by nlinarith)]
    simpa using ((hasDerivAt_id t).const_mul ia).const_add F
  · have hia0 := hK.trans hlt
    have hmono := travel_strictMono hK hS hlt
    have hFs0 := Fsat_pos hp hlt hthd
    -- every time is reached
    have hex : ∀ t : ℝ, 0 ≤ t → ∃ z, F ≤ z ∧ travel p.Ks (p.psi * thd) ia z = travel p.Ks (p.psi * thd) ia F + t := by
      intro t ht
      obtain ⟨B, hB, h0⟩ := gaF_root (F1 := max F (Fsat p ia thd)) hp hthd (hF.trans (le_max_left _ _)) ht
      rw [gaF_zero_iff hp] at h0
      have hBF := (le_max_left _ _).trans hB
      have hhi : travel p.Ks (p.psi * thd) ia F + t ≤ travel p.Ks (p.psi * thd) ia B := by
        have h1 : travel p.Ks (p.psi * thd) ia F ≤ travel p.Ks (p.psi * thd) ia (max F (Fsat p ia thd)) :=
          hmono.monotoneOn hF (hF.trans (le_max_left F (Fsat p ia thd))) (le_max_left _ _)
        have h2 : travel p.Ks (p.psi * thd) ia B =
            travel p.Ks (p.psi * thd) ia (max F (Fsat p ia thd)) + t := by
          rw [travel_hi (by rw [Fsat_eq]; exact (le_max_right _ _).trans hB),
            travel_hi (by rw [Fsat_eq]; exact le_max_right _ _), h0]
          field_simp
          ring
        linarith
      obtain ⟨z, hz, he⟩ := intermediate_value_Icc hBF
        (fun z hz => (travel_deriv hK hS hlt (hF.trans hz.1)).continuousAt.continuousWithinAt)
        (mem_Icc.mpr ⟨le_add_of_nonneg_right ht, hhi⟩)
      exact ⟨z, hz.1, he⟩
    choose! y hyF hyt using hex
    have hy0 : ∀ t, 0 ≤ t → 0 ≤ y t := fun t ht => hF.trans (hyF t ht)
    have hymono : ∀ t u, 0 ≤ t → t ≤ u → y t ≤ y u := by
      intro t u ht htu
      rw [← hmono.le_iff_le (hy0 t ht) (hy0 u (ht.trans htu)), hyt t ht, hyt u (ht.trans htu)]
      linarith
    -- the inverse is Lipschitz: infiltration is no faster than the supply
    have hlip : ∀ t u, 0 ≤ t → t ≤ u → y u - y t ≤ ia * (u - t) := by
      intro t u ht htu
      have h1 := hyt t ht
      have h2 := hyt u (ht.trans htu)
      rcases (hymono t u ht htu).eq_or_lt with h | h
      · rw [h, sub_self]; exact mul_nonneg hia (by linarith)
      · obtain ⟨c, hc, he⟩ := exists_hasDerivAt_eq_slope (travel p.Ks (p.psi * thd) ia)
          (fun z => 1 / lawRate p.Ks (p.psi * thd) ia z) h
          (fun z hz => (travel_deriv hK hS hlt ((hy0 t ht).trans hz.1)).continuousAt.continuousWithinAt)
          (fun z hz => travel_deriv hK hS hlt ((hy0 t ht).trans hz.1.le))
        have hc0 := (hy0 t ht).trans hc.1.le
        have hr := lawRate_le (ia := ia) hK hS hc0
        have hrp := lawRate_pos hK hS hia0 hc0
        have hd : 0 < y u - y t := by linarith
        rw [h1, h2, div_eq_div_iff hrp.ne' hd.ne'] at he
        have : 0 ≤ u - t := by linarith
        nlinarith
    have habs : ∀ t u, 0 ≤ t → 0 ≤ u → |y u - y t| ≤ ia * |u - t| := by
      intro t u ht hu
      rcases le_total t u with h | h
      · rw [abs_of_nonneg (sub_nonneg.mpr (hymono t u ht h)), abs_of_nonneg (sub_nonneg.mpr h)]
        exact hlip t u ht h
      · rw [abs_sub_comm, abs_sub_comm u, abs_of_nonneg (sub_nonneg.mpr (hymono u t hu h)),
          abs_of_nonneg (sub_nonneg.mpr h)]
        exact hlip u t hu h
    have hcont : ContinuousOn y (Ici 0) := by
      have : LipschitzOnWith (Real.toNNReal ia) y (Ici 0) := by
        refine LipschitzOnWith.of_dist_le_mul fun a ha b hb => ?_
        rw [Real.dist_eq, Real.dist_eq, Real.coe_toNNReal _ hia]
        exact habs b a hb ha
      exact this.continuousOn
    refine ⟨y, ?_, hcont.mono Icc_subset_Ici_self, fun t ht => ?_⟩
    · refine hmono.injOn (hy0 0 le_rfl) hF ?_
      rw [hyt 0 le_rfl, add_zero]
    · have hca : ContinuousAt y t := hcont.continuousAt (Ici_mem_nhds ht.1)
      have hd : HasDerivAt (fun z => travel p.Ks (p.psi * thd) ia z - travel p.Ks (p.psi * thd) ia F)
          (1 / lawRate p.Ks (p.psi * thd) ia (y t)) (y t) :=
        (travel_deriv hK hS hlt (hy0 t ht.1.le)).sub_const _
      have := hd.of_local_left_inverse hca
        (one_div_pos.mpr (lawRate_pos hK hS hia0 (hy0 t ht.1.le))).ne'
        (by filter_upwards [Ioi_mem_nhds ht.1] with u hu
            rw [hyt u (le_of_lt hu)]; ring)
      simpa using this

/-- Two courses of infiltration under the same supply do not move apart. -/
theorem Obeys.nonexpansive (hp : p.Physical) (hthd : 0 < thd) (hia : 0 ≤ ia) (hdt : 0 ≤ dt) {F' : ℝ} {z : ℝ → ℝ}
    (hF : 0 ≤ F) (hle : F ≤ F') (h : Obeys p.Ks (p.psi * thd) ia F dt y)
    (h' : Obeys p.Ks (p.psi * thd) ia F' dt z) : 0 ≤ z dt - y dt ∧ z dt - y dt ≤ F' - F := by
  have hS := mul_pos hp.psi hthd
  have hK := hp.Ks
  have hF' := hF.trans hle
  have hord : ∀ t ∈ Icc 0 dt, y t ≤ z t := by
    intro t ht
    rcases le_or_gt ia p.Ks with hc | hc
    · rw [(h.sub ht.2).low hK hS hia hF ht.1 hc, (h'.sub ht.2).low hK hS hia hF' ht.1 hc]; linarith
    · rw [← (travel_strictMono hK hS hc).le_iff_le (hF.trans (h.ge hK hS hia ht))
        (hF'.trans (h'.ge hK hS hia ht)), (h.sub ht.2).travel hK hS hc hF ht.1,
        (h'.sub ht.2).travel hK hS hc hF' ht.1]
      have := (travel_strictMono hK hS hc).monotoneOn hF hF' hle
      linarith
  refine ⟨sub_nonneg.mpr (hord dt ⟨hdt, le_rfl⟩), ?_⟩
  have := slope_le (g := fun t => z t - y t)
    (g' := fun t => lawRate p.Ks (p.psi * thd) ia (z t) - lawRate p.Ks (p.psi * thd) ia (y t)) (c := 0) hdt
    (h'.cont.sub h.cont) (fun t ht => (h'.law t ht).sub (h.law t ht)) (fun t ht => by
      have hm : t ∈ Icc 0 dt := ⟨ht.1.le, ht.2.le⟩
      have := lawRate_anti (ia := ia) hK hS (hF.trans (h.ge hK hS hia hm)) (hord t hm)
      linarith)
  simp only [h.start, h'.start] at this
  linarith

/-- **C145 (the law has one solution).** -/
theorem C145_unique (hp : p.Physical) (hthd : 0 < thd) (hia : 0 ≤ ia) (hdt : 0 ≤ dt) {z : ℝ → ℝ} (hF : 0 ≤ F)
    (h : Obeys p.Ks (p.psi * thd) ia F dt y) (h' : Obeys p.Ks (p.psi * thd) ia F dt z) : y dt = z dt := by
  have := h.nonexpansive hp hthd hia hdt hF le_rfl h'
  linarith

end exact

/-! ### Infiltration at capacity throughout -/

theorem capH_tangent_lt {S a x : ℝ} (hS : 0 < S) (ha : 0 ≤ a) (hx : 0 ≤ x) (hne : x ≠ a) :
    capH S a + a / (a + S) * (x - a) < capH S x := by
  have h1 : 0 < a + S := by linarith
  have h2 : 0 < x + S := by linarith
  have hq : (x + S) / (a + S) ≠ 1 := by
    intro h; rw [div_eq_one_iff_eq h1.ne'] at h; exact hne (by linarith)
  have hl := Real.log_lt_sub_one_of_pos (div_pos h2 h1) hq
  rw [Real.log_div h2.ne' h1.ne'] at hl
  have he : (x + S) / (a + S) - 1 = (x - a) / (a + S) := by field_simp; ring
  rw [he] at hl
  have h3 := mul_lt_mul_of_pos_left hl hS
  have h4 : a / (a + S) * (x - a) = (x - a) - S * ((x - a) / (a + S)) := by field_simp; ring
  unfold capH
  rw [h4]; linarith

theorem capH_tangent {S a x : ℝ} (hS : 0 < S) (ha : 0 ≤ a) (hx : 0 ≤ x) :
    capH S a + a / (a + S) * (x - a) ≤ capH S x := by
  by_cases h : x = a
  · rw [h, sub_self, mul_zero, add_zero]
  · exact (capH_tangent_lt hS ha hx h).le

/-- The function grows more slowly than its argument. -/
theorem capH_lip {S a x : ℝ} (hS : 0 < S) (ha : 0 ≤ a) (hax : a ≤ x) : capH S x - capH S a ≤ x - a := by
  have h1 : 0 < a + S := by linarith
  have := Real.log_le_log h1 (by linarith : a + S ≤ x + S)
  unfold capH
  nlinarith

section target

variable {p : Soil} {thd ia F dt r : ℝ} {y : ℝ → ℝ}

theorem Fsat_ratio (hp : p.Physical) (hthd : 0 < thd) (hia : p.Ks < ia) :
    Fsat p ia thd / (Fsat p ia thd + p.psi * thd) = p.Ks / ia := by
  have := hp.Ks
  have := hp.psi
  have h1 : ia - p.Ks ≠ 0 := by linarith
  have hia0 : 0 < ia := by linarith
  have hFs := Fsat_pos hp hia hthd
  rw [div_eq_div_iff (by positivity) hia0.ne']
  unfold Fsat
  field_simp
  ring

theorem below_root (hp : p.Physical) (hthd : 0 < thd) (hr : 0 ≤ r) (h0 : gaF p thd F dt r = 0) {z : ℝ}
    (hz : capH (p.psi * thd) z ≤ capH (p.psi * thd) F + p.Ks * dt) : z ≤ r := by
  by_contra hcon
  push Not at hcon
  have h1 := gaF_anti (F1 := F) (dt := dt) hp.psi hthd hr hcon
  rw [h0] at h1
  have h2 : gaF p thd F dt z = capH (p.psi * thd) F + p.Ks * dt - capH (p.psi * thd) z := by
    unfold gaF capH; rw [abs_of_pos hp.psi]; ring
  linarith

/-- The law never infiltrates more than the capacity would. -/
theorem Obeys.le_capacity (hp : p.Physical) (hthd : 0 < thd) (hia : 0 ≤ ia) (hdt : 0 ≤ dt) (hF : 0 ≤ F)
    (hr : 0 ≤ r) (h0 : gaF p thd F dt r = 0) (h : Obeys p.Ks (p.psi * thd) ia F dt y) : y dt ≤ r := by
  have hS := mul_pos hp.psi hthd
  have hK := hp.Ks
  have hy : ∀ t ∈ Icc 0 dt, 0 ≤ y t := fun t ht => hF.trans (h.ge hK hS hia ht)
  refine below_root hp hthd hr h0 ?_
  have := slope_le (g := fun t => capH (p.psi * thd) (y t)) (c := p.Ks) hdt
    (fun t ht => ((capH_deriv hS (hy t ht)).continuousAt.comp_continuousWithinAt (h.cont t ht)))
    (fun t ht => (capH_deriv hS (hy t ⟨ht.1.le, ht.2.le⟩)).comp t (h.law t ht)) (fun t ht => by
      have hyt := hy t ⟨ht.1.le, ht.2.le⟩
      rcases hyt.eq_or_lt with e | hpos
      · rw [← e, zero_div, zero_mul]; exact hK.le
      · have h1 := min_le_right ia (p.Ks * (1 + p.psi * thd / y t))
        rw [← lawRate_eq_min hpos] at h1
        calc _ ≤ y t / (y t + p.psi * thd) * (p.Ks * (1 + p.psi * thd / y t)) :=
              mul_le_mul_of_nonneg_left h1 (by positivity)
          _ = p.Ks := by field_simp)
  simpa only [h.start] using this

/-- **C145 (saturated elements).** The exact value the saturated case aims at — infiltration at capacity over
the whole step, limited to the water on offer — is what the law gives if and only if the supply is at most the
conductivity, the surface is ponded from the beginning of the step, or it does not pond during the step. In a
step during which ponding begins it is more than the law gives. -/
theorem C145_saturated_iff (hp : p.Physical) (hthd : 0 < thd) (hia : 0 ≤ ia) (hdt : 0 ≤ dt) (hF : 0 ≤ F)
    (hr : F ≤ r) (h0 : gaF p thd F dt r = 0) (h : Obeys p.Ks (p.psi * thd) ia F dt y) :
    y dt ≤ min r (F + ia * dt) ∧
    (min r (F + ia * dt) = y dt ↔ ia ≤ p.Ks ∨ Fsat p ia thd ≤ F ∨ F + ia * dt ≤ Fsat p ia thd) := by
  have hS := mul_pos hp.psi hthd
  have hK := hp.Ks
  have hr0 := hF.trans hr
  have hcap := h.le_capacity hp hthd hia hdt hF hr0 h0
  have hsup := h.le hK hS hia hF hdt
  refine ⟨le_min hcap hsup, ?_⟩
  constructor
  · intro he
    by_contra hcon
    push Not at hcon
    obtain ⟨c1, c2, c3⟩ := hcon
    have hia0 := hK.trans c1
    have hFs := Fsat_pos hp c1 hthd
    obtain ⟨k1, k2⟩ := h.ponding hp hthd c1 hdt hF c2.le c3.le
    rw [gaF_zero_iff hp] at k2 h0
    have ha := capH_tangent_lt hS hFs.le hF c2.ne
    rw [Fsat_ratio hp hthd c1] at ha
    have hb := capH_tangent_lt hS hFs.le (hFs.le.trans c3.le) c3.ne'
    rw [Fsat_ratio hp hthd c1] at hb
    have e1 : p.Ks * (dt - (Fsat p ia thd - F) / ia) = p.Ks * dt + p.Ks / ia * (F - Fsat p ia thd) := by
      field_simp; ring
    have e2 : p.Ks / ia * (F + ia * dt - Fsat p ia thd) = p.Ks * dt + p.Ks / ia * (F - Fsat p ia thd) := by
      field_simp; ring
    rw [e1] at k2
    rw [e2] at hb
    rcases min_choice r (F + ia * dt) with hm | hm <;> rw [hm] at he
    · rw [← he, h0] at k2; linarith
    · rw [← he] at k2; linarith
  · intro hc
    rcases le_or_gt ia p.Ks with hle | hlt
    · have e := h.low hK hS hia hF hdt hle
      rw [min_eq_right (by rw [← e]; exact hcap), e]
    · rcases hc with hc | hc | hc
      · exact absurd hc (not_le.mpr hlt)
      · have e := gaF_root_unique hp hthd (hF.trans (h.ge hK hS hia ⟨hdt, le_rfl⟩)) hr0
          (h.ponded hp hthd hlt hdt hc) h0
        rw [min_eq_left (by rw [← e]; exact hsup), e]
      · have e := h.dry hp hthd hlt hdt hF hc
        rw [min_eq_right (by rw [← e]; exact hcap), e]

end target

/-! ### Steps -/

/-- How far a step may be from the law: the tolerance of the root finder, over the slope of the equation at
the root. -/
noncomputable def lawTol (p : Soil) (ia : ℝ) : ℝ := 1.48e-8 * max 1 (ia / p.Ks)

theorem lawTol_pos (p : Soil) (ia : ℝ) : 0 < lawTol p ia :=
  mul_pos (by norm_num) (lt_max_of_lt_left one_pos)

theorem lawTol_ge (p : Soil) (ia : ℝ) : 1.48e-8 ≤ lawTol p ia := by
  have := mul_le_mul_of_nonneg_left (le_max_left (1 : ℝ) (ia / p.Ks)) (by norm_num : (0 : ℝ) ≤ 1.48e-8)
  rwa [mul_one] at this

/-- If the capacity over the whole step needs no more than the supply, then so does the capacity at its end. -/
theorem end_slope {p : Soil} {thd ia F dt r : ℝ} (hp : p.Physical) (hthd : 0 < thd) (hdt : 0 < dt) (hF : 0 ≤ F)
    (hr : 0 < r) (h0 : gaF p thd F dt r = 0) (hb : r ≤ F + ia * dt) :
    1.48e-8 * (1 + p.psi * thd / r) ≤ lawTol p ia := by
  have hS := mul_pos hp.psi hthd
  have hK := hp.Ks
  rw [gaF_zero_iff hp] at h0
  have ht := capH_tangent hS hr.le hF
  have hx : 0 < r / (r + p.psi * thd) := by positivity
  have h1 : p.Ks * dt ≤ r / (r + p.psi * thd) * (ia * dt) := by
    have : r / (r + p.psi * thd) * (r - F) ≤ r / (r + p.psi * thd) * (ia * dt) :=
      mul_le_mul_of_nonneg_left (by linarith) hx.le
    have e : r / (r + p.psi * thd) * (F - r) = -(r / (r + p.psi * thd) * (r - F)) := by ring
    rw [e] at ht
    linarith
  have h2 : 1 + p.psi * thd / r ≤ ia / p.Ks := by
    rw [le_div_iff₀ hK]
    rw [← mul_assoc, mul_le_mul_iff_left₀ hdt] at h1
    have e : (1 + p.psi * thd / r) * (r / (r + p.psi * thd) * ia) = ia := by field_simp
    calc (1 + p.psi * thd / r) * p.Ks ≤ (1 + p.psi * thd / r) * (r / (r + p.psi * thd) * ia) :=
          mul_le_mul_of_nonneg_left h1 (by positivity)
      _ = ia := e
  exact mul_le_mul_of_nonneg_left (h2.trans (le_max_right _ _)) (by norm_num)

/-- What the saturated case infiltrates is within the tolerance of what it aims at. -/
theorem saturated_target {p : Soil} {thd ia F dt r q : ℝ} (hp : p.Physical) (hthd : 0 < thd) (hia : 0 ≤ ia)
    (hdt : 0 < dt) (hF : 0 ≤ F) (hr : F ≤ r) (h0 : gaF p thd F dt r = 0) (hbig : F + ia * dt < 10 ^ 7)
    (h : runNewton p thd ia F F dt = .ok q) :
    |F + min (q - F) (ia * dt) - min r (F + ia * dt)| ≤ lawTol p ia := by
  have hr0 : 0 < r := by
    refine (hF.trans hr).lt_of_ne fun e => ?_
    have hF0 : F = 0 := le_antisymm (hr.trans e.symm.le) hF
    rw [← e, hF0, gaF_self] at h0
    exact absurd h0 (mul_pos hp.Ks hdt).ne'
  have htol := lawTol_ge p ia
  have e : F + min (q - F) (ia * dt) = min q (F + ia * dt) := by
    rw [← min_add_add_left]; congr 1; ring
  rw [e]
  rcases le_or_gt r (F + ia * dt) with hb | hb
  · have hn := runNewton_near hp hthd hr0 h0 hb h
    have hs := end_slope hp hthd hdt hF hr0 h0 hb
    rw [min_eq_left hb, abs_le]
    rcases min_cases q (F + ia * dt) with ⟨e1, k1⟩ | ⟨e1, k1⟩ <;> rw [e1] <;> constructor <;>
      norm_num only at hn hs htol ⊢ <;> linarith
  · have hcap : 0 < gaF p thd F dt (F + ia * dt) := by
      have := gaF_anti (F1 := F) (dt := dt) hp.psi hthd (by positivity) hb
      rwa [h0] at this
    obtain ⟨q', hq, k1, k2⟩ := runNewton_limited (x0 := F) hp hthd hF (by positivity) hcap hbig
    rw [h] at hq
    injection hq with hq
    subst hq
    rw [min_eq_right hb.le, min_eq_left k2, abs_le]
    constructor <;> norm_num only at k1 htol ⊢ <;> linarith

/-- The step is one for which the code implements the law: the element is not flagged as saturated, or the
flag makes no difference. -/
def Faithful (p : Soil) (ia dt : ℝ) (s : GA) : Prop :=
  s.sat = false ∨ ia ≤ p.Ks ∨ Fsat p ia s.thd ≤ s.F ∨ s.F + ia * dt ≤ Fsat p ia s.thd

/-- **C145 (one step).** Every soil, every state with non-negative cumulative infiltration and every step with
water on offer: if the element is not flagged as saturated — or the flag makes no difference — then the
cumulative infiltration after the step is the one of the Green–Ampt law up to `lawTol`, and the reported rate
is the mean rate of the law. Missing: saturated elements which begin to pond again during the step, see
`C145_saturated_iff` and `C145_overshoot`. -/
theorem C145_step_partial {p : Soil} (hp : p.Physical) {dt i : ℝ} (hdt : 0 < dt) {s s' : GA}
    (hs : InRange p s) (hF : 0 ≤ s.F) (hw : 0 < i + s.d / dt) (hbig : s.F + (i * dt + s.d) < 10 ^ 7)
    (hgood : Faithful p (i + s.d / dt) dt s) (h : step p dt i s = .ok s') {y : ℝ → ℝ}
    (hy : Obeys p.Ks (p.psi * s.thd) (i + s.d / dt) s.F dt y) :
    |s'.F - y dt| ≤ lawTol p (i + s.d / dt) ∧
    |s'.f - (y dt - s.F) / dt| ≤ lawTol p (i + s.d / dt) / dt := by
  have hcum := C36_cumulative hp hdt (Or.inr hw.ne') h
  suffices hmain : |s'.F - y dt| ≤ lawTol p (i + s.d / dt) by
    refine ⟨hmain, ?_⟩
    have e : s'.f - (y dt - s.F) / dt = (s'.F - y dt) / dt := by
      rw [hcum]; field_simp; ring
    rw [e, abs_div, abs_of_pos hdt]
    exact div_le_div_of_nonneg_right hmain hdt.le
  have hthd := hs.thd_lo
  have hS := mul_pos hp.psi hthd
  have hprod : (i + s.d / dt) * dt = i * dt + s.d := by field_simp
  rw [← hprod] at hbig
  obtain ⟨u, hb, rfl⟩ := step_ok h
  show |u.F - y dt| ≤ _
  clear h hcum hprod
  generalize i + s.d / dt = ia at *
  have htol := lawTol_pos p ia
  have hia := hw.le
  -- the saturated case, entered in either way
  have hsat : ∀ {b T : _} {v : GA}, saturatedCase p dt ia { s with T := T, sat := b } = .ok v →
      ia ≤ p.Ks ∨ Fsat p ia s.thd ≤ s.F ∨ s.F + ia * dt ≤ Fsat p ia s.thd → |v.F - y dt| ≤ lawTol p ia := by
    intro b T v hv hc
    obtain ⟨q, hq, rfl⟩ := saturatedCase_ok hv
    obtain ⟨r, hr, h0⟩ := gaF_root (dt := dt) hp hthd hF hdt.le
    have := saturated_target hp hthd hia hdt hF hr h0 hbig hq
    rwa [((C145_saturated_iff hp hthd hia hdt.le hF hr h0 hy).2).mpr hc] at this
  rcases infiltrate_ok hp.Ks hb with ⟨c, hb⟩ | ⟨c, c1, rfl⟩ | ⟨c, c1, hb⟩
  · rcases hgood with g | g
    · rw [show s.sat = true from c] at g; cases g
    · exact hsat hb g
  · rw [if_neg hw.ne', hy.low hp.Ks hS hia hF hdt.le c1]
    simp only [case2, sub_self, abs_zero]
    exact htol.le
  · rcases case3_ok hb with ⟨k, hb⟩ | ⟨k, k1, rfl⟩ | ⟨k, k1, q, hq, rfl⟩
    · exact hsat hb (Or.inr (Or.inl k))
    · rw [hy.dry hp hthd c1 hdt.le hF k1.le]
      simp only [sub_self, abs_zero]
      exact htol.le
    · obtain ⟨m1, m2⟩ := hy.ponding hp hthd c1 hdt.le hF k.le k1
      have hFs := Fsat_pos hp c1 hthd
      have hsub : 0 ≤ dt - (Fsat p ia s.thd - s.F) / ia := by
        rw [sub_nonneg, div_le_iff₀ hw]
        change Fsat p ia s.thd ≤ s.F + ia * dt at k1
        linarith
      have hle := hy.le hp.Ks hS hia hF hdt.le
      have hn := runNewton_near hp hthd (hFs.trans_le m1) m2
        (by rw [sub_bracket hw.ne']; exact hle) hq
      have hslope : 1.48e-8 * (1 + p.psi * s.thd / y dt) ≤ lawTol p ia := by
        have h1 : p.psi * s.thd / y dt ≤ p.psi * s.thd / Fsat p ia s.thd :=
          div_le_div_of_nonneg_left hS.le hFs m1
        have h2 : 1 + p.psi * s.thd / Fsat p ia s.thd = ia / p.Ks := by
          have hKs := hp.Ks
          have := Fsat_ratio hp hthd c1
          rw [div_eq_div_iff (by positivity) hw.ne'] at this
          field_simp
          linarith
        exact mul_le_mul_of_nonneg_left ((by linarith : _ ≤ ia / p.Ks).trans (le_max_right _ _)) (by norm_num)
      have htol' := lawTol_ge p ia
      show |q - y dt| ≤ _
      rw [abs_le]
      constructor <;> norm_num only at hn hslope htol' ⊢ <;> linarith

/-- **C145 (overshoot).** A saturated element which begins to pond during a step infiltrates more than the law
by at least a positive amount that depends on soil, supply and starting point only, unless it takes up all the
water on offer; both up to the tolerance. -/
theorem C145_overshoot {p : Soil} (hp : p.Physical) {dt i : ℝ} (hdt : 0 < dt) {s s' : GA}
    (hs : InRange p s) (hF : 0 ≤ s.F) (hbig : s.F + (i * dt + s.d) < 10 ^ 7) (hsat : s.sat = true)
    (hK : p.Ks < i + s.d / dt) (hlt : s.F < Fsat p (i + s.d / dt) s.thd)
    (hpond : Fsat p (i + s.d / dt) s.thd < s.F + (i + s.d / dt) * dt) (h : step p dt i s = .ok s') {y : ℝ → ℝ}
    (hy : Obeys p.Ks (p.psi * s.thd) (i + s.d / dt) s.F dt y) :
    0 < capH (p.psi * s.thd) s.F - capH (p.psi * s.thd) (Fsat p (i + s.d / dt) s.thd)
        + p.Ks / (i + s.d / dt) * (Fsat p (i + s.d / dt) s.thd - s.F) ∧
    y dt < s.F + (i + s.d / dt) * dt ∧
    min (y dt + (capH (p.psi * s.thd) s.F - capH (p.psi * s.thd) (Fsat p (i + s.d / dt) s.thd)
        + p.Ks / (i + s.d / dt) * (Fsat p (i + s.d / dt) s.thd - s.F))) (s.F + (i + s.d / dt) * dt)
      - lawTol p (i + s.d / dt) ≤ s'.F := by
  have hthd := hs.thd_lo
  have hS := mul_pos hp.psi hthd
  have hprod : (i + s.d / dt) * dt = i * dt + s.d := by field_simp
  rw [← hprod] at hbig
  obtain ⟨u, hb, rfl⟩ := step_ok h
  show _ ∧ _ ∧ _ ≤ u.F
  clear h hprod
  generalize i + s.d / dt = ia at *
  have hia0 := hp.Ks.trans hK
  have hFs := Fsat_pos hp hK hthd
  obtain ⟨r, hr, h0⟩ := gaF_root (dt := dt) hp hthd hF hdt.le
  obtain ⟨k1, k2⟩ := hy.ponding hp hthd hK hdt.le hF hlt.le hpond.le
  have hcap := hy.le_capacity hp hthd hia0.le hdt.le hF (hF.trans hr) h0
  have ha := capH_tangent_lt hS hFs.le hF hlt.ne
  rw [Fsat_ratio hp hthd hK] at ha
  have e1 : p.Ks * (dt - (Fsat p ia s.thd - s.F) / ia) = p.Ks * dt - p.Ks / ia * (Fsat p ia s.thd - s.F) := by
    field_simp
  have e2 : p.Ks / ia * (s.F - Fsat p ia s.thd) = -(p.Ks / ia * (Fsat p ia s.thd - s.F)) := by ring
  rw [e2] at ha
  refine ⟨by linarith, ?_, ?_⟩
  · obtain ⟨hle, hiff⟩ := C145_saturated_iff hp hthd hia0.le hdt.le hF hr h0 hy
    have hb := capH_tangent_lt hS hFs.le (hFs.le.trans hpond.le) hpond.ne'
    rw [Fsat_ratio hp hthd hK] at hb
    refine (hle.trans (min_le_right _ _)).lt_of_ne fun he => ?_
    rw [gaF_zero_iff hp, he, e1] at k2
    have e3 : p.Ks / ia * (s.F + ia * dt - Fsat p ia s.thd)
        = p.Ks * dt - p.Ks / ia * (Fsat p ia s.thd - s.F) := by field_simp; ring
    rw [e3] at hb
    linarith
  · rcases infiltrate_ok hp.Ks hb with ⟨-, hb⟩ | ⟨c, -⟩ | ⟨c, -⟩
    · obtain ⟨q, hq, rfl⟩ := saturatedCase_ok hb
      have ht := saturated_target hp hthd hia0.le hdt hF hr h0 hbig hq
      rw [gaF_zero_iff hp] at k2 h0
      rw [e1] at k2
      have hl := capH_lip hS (hFs.le.trans k1) hcap
      have hmono := min_le_min (le_refl (s.F + ia * dt)) (by linarith : y dt + (capH (p.psi * s.thd) s.F
        - capH (p.psi * s.thd) (Fsat p ia s.thd) + p.Ks / ia * (Fsat p ia s.thd - s.F)) ≤ r)
      rw [min_comm, min_comm _ r] at hmono
      have := (abs_le.mp ht).1
      show _ ≤ s.F + min (q - s.F) (ia * dt)
      linarith
    · rw [show s.sat = false from c] at hsat; cases hsat
    · rw [show s.sat = false from c] at hsat; cases hsat

/-! ### Wet weather of any length -/

/-- A wet step of an element with non-negative cumulative infiltration leaves it so. -/
theorem wet_nonneg {p : Soil} (hp : p.Physical) {dt i : ℝ} (hdt : 0 < dt) {s s' : GA}
    (hF : 0 ≤ s.F) (hw : 0 < i + s.d / dt) (h : step p dt i s = .ok s') : 0 ≤ s'.F := by
  obtain ⟨u, hb, rfl⟩ := step_ok h
  show 0 ≤ u.F
  clear h
  generalize i + s.d / dt = ia at *
  have hprod : 0 ≤ ia * dt := by positivity
  have hsat : ∀ {b T : _} {v : GA}, saturatedCase p dt ia { s with T := T, sat := b } = .ok v → 0 ≤ v.F := by
    intro b T v hv
    obtain ⟨q, hq, rfl⟩ := saturatedCase_ok hv
    have hin := C39_in_interval (runNewton_ok hq).2
    change Hull 0 (s.F + ia * dt) q at hin
    unfold Hull at hin
    rw [min_eq_left (by linarith)] at hin
    show 0 ≤ s.F + min (q - s.F) (ia * dt)
    rcases min_choice (q - s.F) (ia * dt) with h | h <;> rw [h]
    · linarith [hin.1]
    · linarith
  rcases infiltrate_ok hp.Ks hb with ⟨-, hb⟩ | ⟨-, -, rfl⟩ | ⟨-, c1, hb⟩
  · exact hsat hb
  · rw [if_neg hw.ne']
    show 0 ≤ s.F + ia * dt
    linarith
  · rcases case3_ok hb with ⟨-, hb⟩ | ⟨-, -, rfl⟩ | ⟨-, -, q, hq, rfl⟩
    · exact hsat hb
    · show 0 ≤ s.F + ia * dt
      linarith
    · have hin := C39_in_interval (runNewton_ok hq).2
      change Hull 0 _ q at hin
      rw [sub_bracket hw.ne'] at hin
      unfold Hull at hin
      change min 0 (s.F + ia * dt) ≤ q ∧ _ at hin
      rw [min_eq_left (by linarith)] at hin
      exact hin.1

/-- `Tracks p s x s' x' e`: steps with water on offer lead from state `s` to state `s'`, and a course of
infiltration which obeys the law under the same supply leads from `x` to `x'`; `e` adds up the tolerances. -/
inductive Tracks (p : Soil) : GA → ℝ → GA → ℝ → ℝ → Prop
  | nil (s : GA) (x : ℝ) : Tracks p s x s x 0
  | cons {s s' s'' : GA} {x x'' e : ℝ} (dt i : ℝ) (y : ℝ → ℝ) (hdt : 0 < dt) (hw : 0 < i + s.d / dt)
      (hbig : s.F + (i * dt + s.d) < 10 ^ 7) (hgood : Faithful p (i + s.d / dt) dt s)
      (hstep : step p dt i s = .ok s') (hy : Obeys p.Ks (p.psi * s.thd) (i + s.d / dt) x dt y)
      (rest : Tracks p s' (y dt) s'' x'' e) : Tracks p s x s'' x'' (lawTol p (i + s.d / dt) + e)

/-- **C145 (wet weather).** Any number of steps of any sizes and supplies: errors only add up, because courses
of infiltration under the law do not move apart. In particular dividing a wet period into other steps changes
the result by no more than the tolerances of the steps. -/
theorem C145_run_partial {p : Soil} (hp : p.Physical) {s s' : GA} {x x' e : ℝ} (h : Tracks p s x s' x' e)
    (hs : InRange p s) (hF : 0 ≤ s.F) (hx : 0 ≤ x) : |s'.F - x'| ≤ |s.F - x| + e := by
  induction h with
  | nil s x => rw [add_zero]
  | @cons s s' s'' x x'' e dt i y hdt hw hbig hgood hstep hy rest ih =>
    have hthd := hs.thd_lo
    have hS := mul_pos hp.psi hthd
    have hy0 : 0 ≤ y dt := hx.trans (hy.ge hp.Ks hS hw.le ⟨hdt.le, le_rfl⟩)
    have key := ih (C35_step hp hdt hs hstep) (wet_nonneg hp hdt hF hw hstep) hy0
    obtain ⟨z, hz⟩ := C145_exists (p := p) (thd := s.thd) (ia := i + s.d / dt) (F := s.F) hp hthd hw.le hF dt
    have h1 := (C145_step_partial hp hdt hs hF hw hbig hgood hstep hz).1
    have h2 : |z dt - y dt| ≤ |s.F - x| := by
      rcases le_total s.F x with hc | hc
      · obtain ⟨a, b⟩ := hz.nonexpansive hp hthd hw.le hdt.le hF hc hy
        rw [abs_sub_comm, abs_sub_comm s.F, abs_of_nonneg a, abs_of_nonneg (by linarith)]
        exact b
      · obtain ⟨a, b⟩ := hy.nonexpansive hp hthd hw.le hdt.le hx hc hz
        rw [abs_of_nonneg a, abs_of_nonneg (by linarith)]
        exact b
    have h3 : |s'.F - y dt| ≤ |s'.F - z dt| + |z dt - y dt| := abs_sub_le _ _ _
    linarith

/-! ### Concrete cases -/

/-- Soil used in the examples: conductivity 36 mm/h, suction head 10 cm, deficit one half. -/
noncomputable def lawSoil : Soil := { psi := 0.1, Ks := 1e-5, thmax := 0.5, A_s := 1 }

theorem lawSoil_physical : lawSoil.Physical := by
  constructor <;> norm_num [lawSoil]

/-- A fresh element of it under 72 mm/h for half an hour: it does not pond, and 36 mm infiltrate. -/
example : ∃ s', step lawSoil 1800 2e-5 (initial lawSoil) = .ok s' ∧ |s'.F - 0.036| ≤ lawTol lawSoil 2e-5 := by
  have hp := lawSoil_physical
  obtain ⟨s', h⟩ := C139_step (dt := 1800) (i := 2e-5) hp (by norm_num) (by norm_num) (sound_initial hp)
    (by norm_num [initial])
  obtain ⟨y, hy⟩ := C145_exists (p := lawSoil) (thd := 0.5) (ia := 2e-5) (F := 0) hp (by norm_num) (by norm_num)
    le_rfl 1800
  have e : (2e-5 : ℝ) + (initial lawSoil).d / 1800 = 2e-5 := by norm_num [initial]
  have hd : y 1800 = 0.036 := by
    rw [hy.dry hp (by norm_num) (by norm_num [lawSoil]) (by norm_num) le_rfl (by norm_num [Fsat, lawSoil])]
    norm_num
  have := (C145_step_partial (y := y) hp (by norm_num) (inRange_initial hp) le_rfl (by rw [e]; norm_num)
    (by norm_num [initial]) (Or.inl rfl) h (by rw [e]; exact hy)).1
  rw [e, hd] at this
  exact ⟨s', h, this⟩

/-- How far off: a saturated element of this soil which has taken up 5 mm infiltrates, in ten hours of rain at
72 mm/h, at least 7 mm more than the law allows. -/
example {s s' : GA} (hs : InRange lawSoil s) (hF : s.F = 0.005) (hthd : s.thd = 0.5) (hd : s.d = 0)
    (hsat : s.sat = true) (h : step lawSoil 36000 2e-5 s = .ok s') {y : ℝ → ℝ}
    (hy : Obeys lawSoil.Ks (lawSoil.psi * s.thd) 2e-5 s.F 36000 y) : y 36000 + 0.007 ≤ s'.F := by
  have hp := lawSoil_physical
  have e : (2e-5 : ℝ) + s.d / 36000 = 2e-5 := by rw [hd]; norm_num
  have hS : lawSoil.psi * s.thd = 0.05 := by rw [hthd]; norm_num [lawSoil]
  have hFs : Fsat lawSoil 2e-5 s.thd = 0.05 := by rw [hthd]; norm_num [Fsat, lawSoil]
  have hK : lawSoil.Ks = 1e-5 := rfl
  have hov := C145_overshoot (y := y) hp (by norm_num) hs (by rw [hF]; norm_num)
    (by rw [hF, hd]; norm_num) hsat (by rw [e, hK]; norm_num) (by rw [e, hFs, hF]; norm_num)
    (by rw [e, hFs, hF]; norm_num) h (by rw [e]; exact hy)
  rw [e, hS, hFs, hF, hK] at hov
  obtain ⟨-, -, hov⟩ := hov
  have hyp := (hy.ponding hp (by rw [hthd]; norm_num) (by rw [hK]; norm_num) (by norm_num) (by rw [hF]; norm_num)
    (by rw [hFs, hF]; norm_num) (by rw [hFs, hF]; norm_num))
  rw [gaF_zero_iff hp, hS, hFs, hF, hK] at hyp
  obtain ⟨hy1, hy2⟩ := hyp
  have l2 := Real.log_two_gt_d9
  have l2' := Real.log_two_lt_d9
  -- the law stays far below the supply
  have hlow : y 36000 ≤ 0.7 := by
    by_contra hcon
    push Not at hcon
    have ht := capH_tangent (S := 0.05) (a := 0.7) (x := y 36000) (by norm_num) (by norm_num) (by linarith)
    have h1 : (0 : ℝ) ≤ 0.7 / (0.7 + 0.05) * (y 36000 - 0.7) := mul_nonneg (by norm_num) (by linarith)
    have h3 : capH 0.05 0.7 - capH 0.05 0.05 = 0.65 - 0.05 * Real.log (0.75 / 0.1) := by
      rw [Real.log_div (by norm_num) (by norm_num)]
      unfold capH
      norm_num
      ring
    have h4 : Real.log (0.75 / 0.1 : ℝ) ≤ 3 * Real.log 2 := by
      rw [show (3 : ℝ) * Real.log 2 = Real.log (2 ^ 3) by rw [Real.log_pow]; norm_num]
      exact Real.log_le_log (by norm_num) (by norm_num)
    norm_num only at h1 h3 h4 hy2 ht l2'
    linarith
  have hD : (0.0071 : ℝ) ≤ capH 0.05 0.005 - capH 0.05 0.05 + 1e-5 / 2e-5 * (0.05 - 0.005) := by
    have h3 : capH 0.05 0.005 - capH 0.05 0.05 = -0.045 + 0.05 * (Real.log 2 - Real.log (1.1)) := by
      have e1 : (0.05 + 0.05 : ℝ) = 0.05 * 2 := by norm_num
      have e2 : (0.005 + 0.05 : ℝ) = 0.05 * 1.1 := by norm_num
      unfold capH
      rw [e1, e2, Real.log_mul (by norm_num) (by norm_num), Real.log_mul (by norm_num) (by norm_num)]
      ring
    have h4 := Real.log_le_sub_one_of_pos (by norm_num : (0 : ℝ) < 1.1)
    rw [h3]
    norm_num only at h4 l2 ⊢
    linarith
  have htol : lawTol lawSoil 2e-5 ≤ 0.0001 := by
    unfold lawTol
    rw [hK, max_eq_right (by norm_num)]
    norm_num
  refine le_trans ?_ hov
  rw [le_sub_iff_add_le]
  refine le_min ?_ ?_
  · norm_num only at hD htol ⊢
    linarith
  · norm_num only at hlow htol ⊢
    linarith

end Pipedream.Infiltration
