import Verif.InfiltrationRainProps

/-!
# C184: the infiltration rate declines towards the conductivity of the soil

Consequences of the Green–Ampt equation which a user can read off the reported rates: with enough water on
offer the rate is never below the saturated conductivity and never above the capacity of the soil at the
beginning of the step; from one step to the next it does not rise while the supply does not; and in a long wet
spell its excess over the conductivity dies out like one over the number of steps.
-/

namespace Pipedream.Infiltration

open Pipedream.Link Pipedream.Root Set

/-- The soil's capacity for infiltration — the Green–Ampt formula — after `F` has infiltrated. -/
noncomputable def capacity (p : Soil) (thd F : ℝ) : ℝ := p.Ks * (1 + p.psi * thd / F)

/-! ### What a step aims at -/

section target

variable {p : Soil} {thd F F' dt r r' : ℝ}

theorem root_ge (hp : p.Physical) (hthd : 0 < thd) (hF : 0 ≤ F) (hr : F ≤ r) (h0 : gaF p thd F dt r = 0) :
    F + p.Ks * dt ≤ r := by
  have hS := mul_pos hp.psi hthd
  rw [gaF_zero_iff hp] at h0
  have := capH_lip hS hF hr
  linarith

theorem root_le (hp : p.Physical) (hthd : 0 < thd) (hF : 0 < F) (hr : F ≤ r) (h0 : gaF p thd F dt r = 0) :
    r ≤ F + capacity p thd F * dt := by
  have hS := mul_pos hp.psi hthd
  rw [gaF_zero_iff hp] at h0
  have ht := capH_tangent hS hF.le (hF.le.trans hr)
  have h1 : F / (F + p.psi * thd) * (r - F) ≤ p.Ks * dt := by linarith
  have h2 : r - F ≤ capacity p thd F * dt := by
    have e : capacity p thd F * dt = (F + p.psi * thd) / F * (p.Ks * dt) := by
      unfold capacity; field_simp
    have e2 : r - F = (F + p.psi * thd) / F * (F / (F + p.psi * thd) * (r - F)) := by
      field_simp
    rw [e, e2]
    exact mul_le_mul_of_nonneg_left h1 (by positivity)
  linarith

/-- Infiltration at capacity from different starting points: the courses do not move apart. -/
theorem root_nonexpansive (hp : p.Physical) (hthd : 0 < thd) (hF : 0 ≤ F) (hle : F ≤ F') (hr : F ≤ r)
    (hr' : F' ≤ r') (h0 : gaF p thd F dt r = 0) (h0' : gaF p thd F' dt r' = 0) :
    r ≤ r' ∧ r' - F' ≤ r - F := by
  have hS := mul_pos hp.psi hthd
  have h0'' := h0
  have h0''' := h0'
  rw [gaF_zero_iff hp] at h0 h0'
  have hmono : capH (p.psi * thd) F ≤ capH (p.psi * thd) F' := by
    have := capH_tangent hS hF (hF.trans hle)
    have h1 : 0 ≤ F / (F + p.psi * thd) * (F' - F) := mul_nonneg (by positivity) (by linarith)
    linarith
  refine ⟨below_root hp hthd (hF.trans (hle.trans hr')) h0''' (by linarith), ?_⟩
  by_contra hcon
  push Not at hcon
  have hlt : r + (F' - F) < r' := by linarith
  have h1 := gaF_anti (F1 := F') (dt := dt) hp.psi hthd (by linarith : 0 ≤ r + (F' - F)) hlt
  rw [h0'''] at h1
  have h2 : gaF p thd F' dt (r + (F' - F))
      = capH (p.psi * thd) F' + p.Ks * dt - capH (p.psi * thd) (r + (F' - F)) := by
    unfold gaF capH; rw [abs_of_pos hp.psi]; ring
  rw [h2] at h1
  -- the increments of `capH` grow
  have hlog : Real.log (r + (F' - F) + p.psi * thd) - Real.log (r + p.psi * thd)
      ≤ Real.log (F' + p.psi * thd) - Real.log (F + p.psi * thd) := by
    have a1 : 0 < F + p.psi * thd := by linarith
    have a2 : 0 < F' + p.psi * thd := by linarith
    have a3 : 0 < r + p.psi * thd := by linarith
    have a4 : 0 < r + (F' - F) + p.psi * thd := by linarith
    rw [← Real.log_div a4.ne' a3.ne', ← Real.log_div a2.ne' a1.ne']
    refine Real.log_le_log (div_pos a4 a3) ?_
    rw [div_le_div_iff₀ a3 a1]
    nlinarith
  have h3 := mul_le_mul_of_nonneg_left hlog hS.le
  unfold capH at h0 h0' h1
  nlinarith

theorem Obeys.ge_supply (hp : p.Physical) (hthd : 0 < thd) {ia : ℝ} (hia : 0 ≤ ia) (hdt : 0 ≤ dt) (hF : 0 ≤ F)
    {y : ℝ → ℝ} (h : Obeys p.Ks (p.psi * thd) ia F dt y) : F + min ia p.Ks * dt ≤ y dt := by
  have hS := mul_pos hp.psi hthd
  have hK := hp.Ks
  have := slope_le (g := fun u => -y u) (g' := fun u => -lawRate p.Ks (p.psi * thd) ia (y u))
    (c := -min ia p.Ks) hdt h.cont.neg (fun u hu => (h.law u hu).neg) (fun u hu => by
      have hy := hF.trans (h.ge hK hS hia ⟨hu.1.le, hu.2.le⟩)
      refine neg_le_neg ?_
      rcases hy.eq_or_lt with e | hpos
      · rw [← e, lawRate, if_pos (by rw [mul_zero, zero_add]; positivity)]; exact min_le_left _ _
      · rw [lawRate_eq_min hpos]
        refine min_le_min le_rfl ?_
        have : 0 ≤ p.psi * thd / y u := by positivity
        nlinarith)
  simp only [h.start] at this
  linarith

end target

/-- Every wet step aims at a value between the infiltration at the smaller of supply and conductivity and the
infiltration at capacity. -/
theorem aim {p : Soil} (hp : p.Physical) {dt i : ℝ} (hdt : 0 < dt) {s s' : GA} (hs : InRange p s)
    (hF : 0 ≤ s.F) (hw : 0 < i + s.d / dt) (hbig : s.F + (i * dt + s.d) < 10 ^ 7) (h : step p dt i s = .ok s') :
    ∃ t, |s'.F - t| ≤ lawTol p (i + s.d / dt) ∧ s.F + min (i + s.d / dt) p.Ks * dt ≤ t ∧
      (0 < s.F → t ≤ s.F + capacity p s.thd s.F * dt) := by
  obtain ⟨hlaw, hsat⟩ := targets hp hdt hs hF hw hbig h
  obtain ⟨r, hr, h0⟩ := gaF_root (dt := dt) hp hs.thd_lo hF hdt.le
  cases hb : s.sat
  · obtain ⟨y, hy⟩ := C145_exists (p := p) (thd := s.thd) (ia := i + s.d / dt) (F := s.F) hp hs.thd_lo hw.le hF dt
    exact ⟨y dt, hlaw hb y hy, hy.ge_supply hp hs.thd_lo hw.le hdt.le hF, fun hF' =>
      (hy.le_capacity hp hs.thd_lo hw.le hdt.le hF (hF.trans hr) h0).trans (root_le hp hs.thd_lo hF' hr h0)⟩
  · refine ⟨_, hsat hb r hr h0, ?_, fun hF' => (min_le_left _ _).trans (root_le hp hs.thd_lo hF' hr h0)⟩
    have h1 := mul_le_mul_of_nonneg_right (min_le_right (i + s.d / dt) p.Ks) hdt.le
    have h2 := mul_le_mul_of_nonneg_right (min_le_left (i + s.d / dt) p.Ks) hdt.le
    exact le_min (by linarith [root_ge hp hs.thd_lo hF hr h0]) (by linarith)

/-! ### The bounds -/

/-- **C184 (bounds on the rate).** Every soil, every state with non-negative cumulative infiltration, flagged as
saturated or not, every step with water on offer: the reported rate is at least the smaller of supply and
saturated conductivity and at most the capacity at the beginning of the step, up to the tolerance of the root
finder. -/
theorem C184_bounds {p : Soil} (hp : p.Physical) {dt i : ℝ} (hdt : 0 < dt) {s s' : GA} (hs : InRange p s)
    (hF : 0 ≤ s.F) (hw : 0 < i + s.d / dt) (hbig : s.F + (i * dt + s.d) < 10 ^ 7) (h : step p dt i s = .ok s') :
    min (i + s.d / dt) p.Ks - lawTol p (i + s.d / dt) / dt ≤ s'.f ∧
    (0 < s.F → s'.f ≤ capacity p s.thd s.F + lawTol p (i + s.d / dt) / dt) := by
  obtain ⟨t, ht, hlo, hhi⟩ := aim hp hdt hs hF hw hbig h
  have hcum := C36_cumulative hp hdt (Or.inr hw.ne') h
  obtain ⟨h1, h2⟩ := abs_le.mp ht
  have e : s'.f = (s'.F - s.F) / dt := by rw [hcum]; field_simp; ring
  constructor
  · rw [e, le_div_iff₀ hdt, sub_mul, div_mul_cancel₀ _ hdt.ne']
    linarith
  · intro hF'
    have := hhi hF'
    rw [e, div_le_iff₀ hdt, add_mul, div_mul_cancel₀ _ hdt.ne']
    linarith

/-- A wet step leaves the moisture deficit of the event alone. -/
theorem wet_thd {p : Soil} (hp : p.Physical) {dt i : ℝ} {s s' : GA} (hw : 0 < i + s.d / dt)
    (h : step p dt i s = .ok s') : s'.thd = s.thd := by
  obtain ⟨u, hb, rfl⟩ := step_ok h
  show u.thd = s.thd
  rcases infiltrate_ok hp.Ks hb with ⟨-, hb⟩ | ⟨-, -, rfl⟩ | ⟨-, -, hb⟩
  · obtain ⟨q, -, rfl⟩ := saturatedCase_ok hb; rfl
  · rw [if_neg hw.ne']; rfl
  · rcases case3_ok hb with ⟨-, hb⟩ | ⟨-, -, rfl⟩ | ⟨-, -, q, -, rfl⟩
    · obtain ⟨q, -, rfl⟩ := saturatedCase_ok hb; rfl
    · rfl
    · rfl

/-! ### From step to step -/

/-- **C184 (decline).** Two successive steps of the same size: if the supply does not rise, then the infiltration
rate does not rise either, up to the tolerances of the root finders. -/
theorem C184_declines {p : Soil} (hp : p.Physical) {dt i i' : ℝ} (hdt : 0 < dt) {s s' s'' : GA}
    (hs : InRange p s) (hF : 0 ≤ s.F) (hw : 0 < i + s.d / dt) (hw' : 0 < i' + s'.d / dt)
    (hle : i' + s'.d / dt ≤ i + s.d / dt) (hbig : s.F + (i * dt + s.d) < 10 ^ 7)
    (hbig' : s'.F + (i' * dt + s'.d) < 10 ^ 7) (h : step p dt i s = .ok s') (h' : step p dt i' s' = .ok s'') :
    s''.f ≤ s'.f + (2 * lawTol p (i + s.d / dt) + lawTol p (i' + s'.d / dt)) / dt := by
  have hs' := C35_step hp hdt hs h
  have hF' := wet_nonneg hp hdt hF hw h
  have hcum := C36_cumulative hp hdt (Or.inr hw.ne') h
  have hcum' := C36_cumulative hp hdt (Or.inr hw'.ne') h'
  have hthd := wet_thd hp hw h
  have hthd0 := hs.thd_lo
  have htol := lawTol_pos p (i + s.d / dt)
  have htol' := lawTol_pos p (i' + s'.d / dt)
  suffices hmain : s''.F - s'.F ≤ s'.F - s.F + (2 * lawTol p (i + s.d / dt) + lawTol p (i' + s'.d / dt)) by
    have e : s''.f - s'.f = ((s''.F - s'.F) - (s'.F - s.F)) / dt := by
      rw [hcum', hcum]; field_simp; ring
    have := div_le_div_of_nonneg_right (by linarith : (s''.F - s'.F) - (s'.F - s.F) ≤
      2 * lawTol p (i + s.d / dt) + lawTol p (i' + s'.d / dt)) hdt.le
    rw [← e] at this
    linarith
  obtain ⟨hlaw, hsat⟩ := targets hp hdt hs hF hw hbig h
  obtain ⟨hlaw', hsat'⟩ := targets hp hdt hs' hF' hw' hbig' h'
  rw [hthd] at hlaw' hsat'
  -- the cumulative infiltration falls by no more than the tolerance
  have hback : s.F - lawTol p (i + s.d / dt) ≤ s'.F := by
    obtain ⟨t, ht, hlo, -⟩ := aim hp hdt hs hF hw hbig h
    have := (abs_le.mp ht).1
    have : 0 ≤ min (i + s.d / dt) p.Ks * dt := mul_nonneg (le_min hw.le hp.Ks.le) hdt.le
    linarith
  obtain ⟨r, hr, h0⟩ := gaF_root (dt := dt) hp hthd0 hF hdt.le
  obtain ⟨r', hr', h0'⟩ := gaF_root (dt := dt) hp hthd0 hF' hdt.le
  have hroot : r' - s'.F ≤ r - s.F + lawTol p (i + s.d / dt) := by
    rcases le_total s.F s'.F with c | c
    · have := (root_nonexpansive hp hthd0 hF c hr hr' h0 h0').2
      linarith
    · have := (root_nonexpansive hp hthd0 hF' c hr' hr h0' h0).1
      linarith
  have hprod := mul_le_mul_of_nonneg_right hle hdt.le
  -- two steps at capacity
  have hcap : |s'.F - min r (s.F + (i + s.d / dt) * dt)| ≤ lawTol p (i + s.d / dt) →
      s'.sat = true → s''.F - s'.F ≤ s'.F - s.F + (2 * lawTol p (i + s.d / dt) + lawTol p (i' + s'.d / dt)) := by
    intro h1 hb'
    have h2 := hsat' hb' r' hr' h0'
    obtain ⟨a1, -⟩ := abs_le.mp h1
    obtain ⟨-, b2⟩ := abs_le.mp h2
    have c1 := min_le_left r' (s'.F + (i' + s'.d / dt) * dt)
    have c2 := min_le_right r' (s'.F + (i' + s'.d / dt) * dt)
    rcases min_choice r (s.F + (i + s.d / dt) * dt) with e | e <;> rw [e] at a1 <;> linarith
  cases hb : s.sat
  · obtain ⟨y, hy⟩ := C145_exists (p := p) (thd := s.thd) (ia := i + s.d / dt) (F := s.F) hp hthd0 hw.le hF dt
    have h1 := hlaw hb y hy
    cases hb' : s'.sat
    · obtain ⟨z, hz⟩ := C145_exists (p := p) (thd := s.thd) (ia := i' + s'.d / dt) (F := s'.F) hp hthd0 hw'.le
        hF' dt
      obtain ⟨v, hv⟩ := C145_exists (p := p) (thd := s.thd) (ia := i + s.d / dt) (F := s'.F) hp hthd0 hw.le
        hF' dt
      have h2 := hlaw' hb' z hz
      have h3 := (hz.supply_mono hp hthd0 hw'.le hle hdt.le hF' hv).1
      have h4 : v dt - s'.F ≤ y dt - s.F + lawTol p (i + s.d / dt) := by
        rcases le_total s.F s'.F with c | c
        · have := (hy.nonexpansive hp hthd0 hw.le hdt.le hF c hv).2
          linarith
        · have := (hv.nonexpansive hp hthd0 hw.le hdt.le hF' c hy).1
          linarith
      obtain ⟨a1, -⟩ := abs_le.mp h1
      obtain ⟨-, b2⟩ := abs_le.mp h2
      linarith
    · -- the flag was set: the element was ponded from the beginning of the step
      refine hcap ?_ hb'
      have hpond : Fsat p (i + s.d / dt) s.thd ≤ s.F := by
        obtain ⟨u, hu, rfl⟩ := step_ok h
        change u.sat = true at hb'
        rcases infiltrate_ok hp.Ks hu with ⟨c, -⟩ | ⟨-, -, rfl⟩ | ⟨-, -, hu⟩
        · rw [show s.sat = true from c] at hb; cases hb
        · rw [if_neg hw.ne'] at hb'
          rw [show s.sat = true from hb'] at hb; cases hb
        · rcases case3_ok hu with ⟨c, -⟩ | ⟨-, -, rfl⟩ | ⟨-, -, q, -, rfl⟩
          · exact c
          · rw [show s.sat = true from hb'] at hb; cases hb
          · rw [show s.sat = true from hb'] at hb; cases hb
      rwa [((C145_saturated_iff hp hthd0 hw.le hdt.le hF hr h0 hy).2).mpr (Or.inr (Or.inl hpond))]
  · cases hb' : s'.sat
    · -- the flag was cleared: everything on offer has infiltrated
      have hall : s'.f = i + s.d / dt := by
        obtain ⟨u, hu, rfl⟩ := step_ok h
        change u.sat = false at hb'
        show u.f = _
        rcases infiltrate_ok hp.Ks hu with ⟨-, hu⟩ | ⟨c, -⟩ | ⟨c, -⟩
        · obtain ⟨q, -, rfl⟩ := saturatedCase_ok hu
          change (if q - s.F > (i + s.d / dt) * dt then false else s.sat) = false at hb'
          split_ifs at hb' with c
          · show min (q - s.F) ((i + s.d / dt) * dt) / dt = _
            rw [min_eq_right (le_of_lt c), mul_div_cancel_right₀ _ hdt.ne']
          · rw [hb] at hb'; cases hb'
        · rw [show s.sat = false from c] at hb; cases hb
        · rw [show s.sat = false from c] at hb; cases hb
      have hsup := C36_supply hp hdt hs' h'
      have : s''.f ≤ s'.f := by rw [hall]; exact hsup.trans hle
      have := mul_le_mul_of_nonneg_left this hdt.le
      linarith
    · exact hcap (hsat hb r hr h0) hb'

/-! ### A long wet spell -/

/-- A wet spell: steps of one size, always with more on offer than the conductivity but never more than `I`. -/
structure Spell (p : Soil) (dt I : ℝ) (i : ℕ → ℝ) (s : ℕ → GA) (N : ℕ) : Prop where
  steps : ∀ n < N, step p dt (i n) (s n) = .ok (s (n + 1))
  wet : ∀ n < N, p.Ks ≤ i n + (s n).d / dt
  most : ∀ n < N, i n + (s n).d / dt ≤ I
  big : ∀ n < N, (s n).F + (i n * dt + (s n).d) < 10 ^ 7

theorem lawTol_mono (p : Soil) (hp : p.Physical) {a b : ℝ} (hab : a ≤ b) : lawTol p a ≤ lawTol p b :=
  mul_le_mul_of_nonneg_left (max_le_max le_rfl (div_le_div_of_nonneg_right hab hp.Ks.le)) (by norm_num)

/-- **C184 (a long wet spell).** Every soil, any course of rain with more on offer than the conductivity: after
`n` steps at least `n·Ks·dt` has infiltrated, and the rate exceeds the conductivity by no more than
`Ks·psi·theta_d` over what has infiltrated, so by an amount that dies out as the spell goes on; both up to the
tolerance of the root finder. -/
theorem C184_spell {p : Soil} (hp : p.Physical) {dt I : ℝ} (hdt : 0 < dt) {i : ℕ → ℝ} {s : ℕ → GA} {N : ℕ}
    (hs : InRange p (s 0)) (hF : 0 ≤ (s 0).F) (hsp : Spell p dt I i s N) (htol : lawTol p I < p.Ks * dt) :
    ∀ n ≤ N, (s 0).F + n * (p.Ks * dt - lawTol p I) ≤ (s n).F ∧
      (0 < n → n < N → p.Ks - lawTol p I / dt ≤ (s (n + 1)).f ∧
        (s (n + 1)).f ≤ p.Ks + p.Ks * (p.psi * (s 0).thd) / ((s 0).F + n * (p.Ks * dt - lawTol p I))
          + lawTol p I / dt) := by
  have hK := hp.Ks
  have hpos : 0 < p.Ks * dt - lawTol p I := by linarith
  have hinv : ∀ n ≤ N, InRange p (s n) ∧ (s n).thd = (s 0).thd ∧
      (s 0).F + n * (p.Ks * dt - lawTol p I) ≤ (s n).F := by
    intro n
    induction n with
    | zero => exact fun _ => ⟨hs, rfl, by simp⟩
    | succ n ih =>
      intro hn
      obtain ⟨h1, h2, h3⟩ := ih (by omega)
      have hlt : n < N := by omega
      have hFn : 0 ≤ (s n).F := by
        have : (0 : ℝ) ≤ n * (p.Ks * dt - lawTol p I) := mul_nonneg (Nat.cast_nonneg n) hpos.le
        linarith
      have hw := hK.trans_le (hsp.wet n hlt)
      refine ⟨C35_step hp hdt h1 (hsp.steps n hlt), (wet_thd hp hw (hsp.steps n hlt)).trans h2, ?_⟩
      obtain ⟨t, ht, hlo, -⟩ := aim hp hdt h1 hFn hw (hsp.big n hlt) (hsp.steps n hlt)
      rw [min_eq_right (hsp.wet n hlt)] at hlo
      have ht1 := (abs_le.mp ht).1
      have hm := lawTol_mono p hp (hsp.most n hlt)
      push_cast
      linarith
  intro n hn
  obtain ⟨h1, h2, h3⟩ := hinv n hn
  refine ⟨h3, fun hn0 hlt => ?_⟩
  have hn1 : (0 : ℝ) < n := by exact_mod_cast hn0
  have hbase : 0 < (s 0).F + n * (p.Ks * dt - lawTol p I) := by
    have := mul_pos hn1 hpos
    linarith
  have hFn := hbase.trans_le h3
  have hw := hK.trans_le (hsp.wet n hlt)
  obtain ⟨a, b⟩ := C184_bounds hp hdt h1 hFn.le hw (hsp.big n hlt) (hsp.steps n hlt)
  have hm := div_le_div_of_nonneg_right (lawTol_mono p hp (hsp.most n hlt)) hdt.le
  rw [min_eq_right (hsp.wet n hlt)] at a
  refine ⟨by linarith, (b hFn).trans ?_⟩
  have hS := mul_pos hp.psi hs.thd_lo
  have : capacity p (s n).thd (s n).F ≤ p.Ks + p.Ks * (p.psi * (s 0).thd) / ((s 0).F + n * (p.Ks * dt - lawTol p I)) := by
    rw [h2, capacity, mul_add, mul_one, ← mul_div_assoc]
    have := div_le_div_of_nonneg_left (mul_pos hK hS).le hbase h3
    linarith
  linarith

/-! ### Concrete cases -/

/-- Five-hour steps of rain at 72 mm/h on a fresh element of the example soil: a wet spell, in whose second
step the rate has fallen below 47 mm/h, the conductivity being 36 mm/h. -/
example : ∃ s : ℕ → GA, s 0 = initial lawSoil ∧ Spell lawSoil 18000 3e-5 (fun _ => 2e-5) s 2 ∧
    lawTol lawSoil 3e-5 < lawSoil.Ks * 18000 ∧ (s 2).f ≤ 1.3e-5 ∧ 0.99e-5 ≤ (s 2).f := by
  have hp := lawSoil_physical
  have hK : lawSoil.Ks = 1e-5 := rfl
  obtain ⟨u, hu⟩ := C139_step (dt := 18000) (i := 2e-5) hp (by norm_num) (by norm_num) (sound_initial hp)
    (by norm_num [initial])
  have hsu := C139_sound hp (by norm_num) (by norm_num) (sound_initial hp) hu
  have e0 : (2e-5 : ℝ) + (initial lawSoil).d / 18000 = 2e-5 := by norm_num [initial]
  have htol3 : lawTol lawSoil 3e-5 = 4.44e-8 := by
    unfold lawTol; rw [hK, max_eq_right (by norm_num)]; norm_num
  have htol2 : lawTol lawSoil 2e-5 = 2.96e-8 := by
    unfold lawTol; rw [hK, max_eq_right (by norm_num)]; norm_num
  have hF0 : (initial lawSoil).F = 0 := rfl
  have hd0 : (initial lawSoil).d = 0 := rfl
  have hcum := C36_cumulative hp (by norm_num) (Or.inr (by rw [e0]; norm_num)) hu
  have hsup := C36_supply hp (by norm_num) (inRange_initial hp) hu
  have hlo := (C184_bounds hp (by norm_num) (inRange_initial hp) le_rfl (by rw [e0]; norm_num)
    (by rw [hF0, hd0]; norm_num) hu).1
  rw [e0, hK, htol2, min_eq_right (by norm_num)] at hlo
  rw [e0] at hsup
  rw [hF0] at hcum
  have hd : u.d ≤ 2e-5 := by
    rw [(surface_formula hp hu).1, hd0]
    refine max_le ?_ (by norm_num)
    norm_num at hlo ⊢
    linarith
  have hd' : 0 ≤ u.d := hsu.range.d_lo
  have hbig : u.F + (2e-5 * 18000 + u.d) < 10 ^ 7 := by norm_num at hsup hd ⊢; linarith
  obtain ⟨w, hw⟩ := C139_step (dt := 18000) (i := 2e-5) hp (by norm_num) (by norm_num) hsu hbig
  have hsp : Spell lawSoil 18000 3e-5 (fun _ => 2e-5)
      (fun n => if n = 0 then initial lawSoil else if n = 1 then u else w) 2 := by
    refine ⟨?_, ?_, ?_, ?_⟩ <;> intro n hn <;> rcases (by omega : n = 0 ∨ n = 1) with rfl | rfl
    · exact hu
    · exact hw
    · simp only [if_true, e0, hK]; norm_num
    · simp only [one_ne_zero, if_false, if_true, hK]; norm_num; linarith
    · simp only [if_true, e0]; norm_num
    · simp only [one_ne_zero, if_false, if_true]; norm_num at hd ⊢; linarith
    · simp only [if_true, hF0, hd0]; norm_num
    · exact hbig
  have htol : lawTol lawSoil 3e-5 < lawSoil.Ks * 18000 := by rw [htol3, hK]; norm_num
  refine ⟨_, rfl, hsp, htol, ?_⟩
  have := ((C184_spell hp (by norm_num) (inRange_initial hp) le_rfl hsp htol) 1 (by norm_num)).2 one_pos
    (by norm_num)
  obtain ⟨a, b⟩ := this
  simp only [if_true] at a b
  rw [htol3, hK, hF0] at b
  rw [htol3, hK] at a
  have e1 : lawSoil.psi * (initial lawSoil).thd = 0.05 := by norm_num [initial, lawSoil]
  rw [e1] at b
  refine ⟨b.trans (by norm_num), le_trans (by norm_num) a⟩

end Pipedream.Infiltration
