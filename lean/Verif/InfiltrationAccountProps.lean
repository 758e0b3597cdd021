import Verif.InfiltrationArrayProps
import Mathlib.Analysis.SpecificLimits.Basic

/-!
# C210: where the rain of a whole run goes

The rain on a soil element should either infiltrate or run off. The water that the code reports as runoff also
stays on the surface as a pond (compute_ponding_depth, infiltration.py 371–374) and infiltrates later: it is
counted twice. The accounts below are over whole runs, with steps of any sizes.
-/

namespace Pipedream.Infiltration

open Finset

/-- `n` completed steps of one element: sizes `dt k`, rain `i k`, and the states `s 0`, …, `s n` in between. -/
structure Trace (p : Soil) (dt i : ℕ → ℝ) (s : ℕ → GA) (n : ℕ) : Prop where
  steps : ∀ k < n, step p (dt k) (i k) (s k) = .ok (s (k + 1))
  pos : ∀ k < n, 0 < dt k

/-- Depth of rain fallen in `n` steps. -/
def fallen (dt i : ℕ → ℝ) (n : ℕ) : ℝ := ∑ k ∈ range n, dt k * i k

/-- Depth of water infiltrated, according to the reported rates. -/
def soaked (dt : ℕ → ℝ) (s : ℕ → GA) (n : ℕ) : ℝ := ∑ k ∈ range n, dt k * (s (k + 1)).f

/-- Volume that ran off, according to the reported discharges. -/
def ranOff (dt : ℕ → ℝ) (s : ℕ → GA) (n : ℕ) : ℝ := ∑ k ∈ range n, dt k * (s (k + 1)).Q

/-- Depth infiltrated in excess of the rain of the same step, that is, from ponds. -/
def fromPonds (dt i : ℕ → ℝ) (s : ℕ → GA) (n : ℕ) : ℝ := ∑ k ∈ range n, dt k * max ((s (k + 1)).f - i k) 0

variable {p : Soil} {dt i : ℕ → ℝ} {s : ℕ → GA} {n : ℕ}

/-- **C210 (the account of a run).** Infiltrated and reported runoff together are the rain plus everything that
infiltrated from ponds. -/
theorem C210_account (hp : p.Physical) (h : Trace p dt i s n) :
    p.A_s * soaked dt s n + ranOff dt s n = p.A_s * (fallen dt i n + fromPonds dt i s n) := by
  simp only [soaked, ranOff, fallen, fromPonds, mul_sum, ← sum_add_distrib]
  refine sum_congr rfl fun k hk => ?_
  rw [(surface_formula hp (h.steps k (mem_range.mp hk))).2]
  have : max (i k - (s (k + 1)).f) 0 = i k - (s (k + 1)).f + max ((s (k + 1)).f - i k) 0 := by
    rcases le_total (i k) (s (k + 1)).f with g | g
    · rw [max_eq_right (by linarith), max_eq_left (by linarith)]; ring
    · rw [max_eq_left (by linarith), max_eq_right (by linarith)]; ring
  rw [this]; ring

/-- **C210 (when the account balances).** Rain is divided between infiltration and runoff exactly if no water
ever infiltrated from a pond; otherwise water has been created. -/
theorem C210_balanced_iff (hp : p.Physical) (hA : 0 < p.A_s) (h : Trace p dt i s n) :
    (p.A_s * soaked dt s n + ranOff dt s n = p.A_s * fallen dt i n ↔ ∀ k < n, (s (k + 1)).f ≤ i k) ∧
      p.A_s * fallen dt i n ≤ p.A_s * soaked dt s n + ranOff dt s n := by
  have h0 : ∀ k ∈ range n, 0 ≤ dt k * max ((s (k + 1)).f - i k) 0 := fun k hk =>
    mul_nonneg (h.pos k (mem_range.mp hk)).le (le_max_right _ _)
  rw [C210_account hp h]
  refine ⟨?_, mul_le_mul_of_nonneg_left (le_add_of_nonneg_right (sum_nonneg h0)) hA.le⟩
  rw [mul_right_inj' hA.ne', add_eq_left, fromPonds, sum_eq_zero_iff_of_nonneg h0]
  refine ⟨fun g k hk => ?_, fun g k hk => ?_⟩
  · have := (mul_eq_zero.mp (g k (mem_range.mpr hk))).resolve_left (h.pos k hk).ne'
    linarith [le_max_left ((s (k + 1)).f - i k) 0]
  · rw [max_eq_right (by linarith [g k (mem_range.mp hk)]), mul_zero]

theorem Trace.inRange (hp : p.Physical) (h : Trace p dt i s n) (hs : InRange p (s 0)) :
    ∀ k ≤ n, InRange p (s k) := by
  intro k
  induction k with
  | zero => exact fun _ => hs
  | succ k ih => exact fun hk => C35_step hp (h.pos k hk) (ih (by omega)) (h.steps k hk)

/-- **C210 (the pond).** With steps of at least a second the ponded depth changes by the sum of the rates,
whatever the sizes of the steps. -/
theorem C210_pond (hp : p.Physical) (h : Trace p dt i s n) (hs : InRange p (s 0)) (h1 : ∀ k < n, 1 ≤ dt k) :
    ∀ m ≤ n, (s m).d = (s 0).d + ∑ k ∈ range m, (i k - (s (k + 1)).f) := by
  intro m
  induction m with
  | zero => intro _; simp
  | succ m ih =>
    intro hm
    have hr := h.inRange hp hs m (by omega)
    have hst := h.steps m hm
    have hsup := C36_supply hp (h.pos m hm) hr hst
    have : (s m).d / dt m ≤ (s m).d := div_le_self hr.d_lo (h1 m hm)
    rw [sum_range_succ, ← add_assoc, ← ih (by omega), (surface_formula hp hst).1, max_eq_left (by linarith)]

/-- **C210 (infiltration against rain).** With equal steps of at least a second, what infiltrated and `dt` times
the ponded depth make up the rain. So a fresh element never infiltrates more than the rain. -/
theorem C210_soaked (hp : p.Physical) {δ : ℝ} (h : Trace p dt i s n) (hs : InRange p (s 0)) (hδ : 1 ≤ δ)
    (hdt : ∀ k < n, dt k = δ) :
    soaked dt s n + δ * (s n).d = fallen dt i n + δ * (s 0).d ∧
      soaked dt s n ≤ fallen dt i n + δ * (s 0).d := by
  have e := C210_pond hp h hs (fun k hk => by rw [hdt k hk]; exact hδ) n le_rfl
  have e1 : soaked dt s n = δ * ∑ k ∈ range n, (s (k + 1)).f := by
    rw [soaked, mul_sum]; exact sum_congr rfl fun k hk => by rw [hdt k (mem_range.mp hk)]
  have e2 : fallen dt i n = δ * ∑ k ∈ range n, i k := by
    rw [fallen, mul_sum]; exact sum_congr rfl fun k hk => by rw [hdt k (mem_range.mp hk)]
  have e3 : soaked dt s n + δ * (s n).d = fallen dt i n + δ * (s 0).d := by
    rw [e, e1, e2, sum_sub_distrib]; ring
  have := mul_nonneg (by linarith : 0 ≤ δ) (h.inRange hp hs n le_rfl).d_lo
  exact ⟨e3, by linarith⟩

/-- **C210 (counted twice).** Equal steps of at least a second, an element without a pond at the beginning: the
runoff reported exceeds the rain that did not infiltrate by all that infiltrated from ponds. If no pond is left
at the end, all the rain has infiltrated, and every drop of reported runoff is water that was not there. -/
theorem C210_twice (hp : p.Physical) {δ : ℝ} (h : Trace p dt i s n) (hs : InRange p (s 0)) (hδ : 1 ≤ δ)
    (hdt : ∀ k < n, dt k = δ) (h0 : (s 0).d = 0) :
    ranOff dt s n = p.A_s * (δ * (s n).d + fromPonds dt i s n) ∧
      ((s n).d = 0 → soaked dt s n = fallen dt i n ∧ ranOff dt s n = p.A_s * fromPonds dt i s n) := by
  have e := (C210_soaked hp h hs hδ hdt).1
  have a := C210_account hp h
  rw [h0, mul_zero, add_zero] at e
  have e' : fallen dt i n = soaked dt s n + δ * (s n).d := e.symm
  have r : ranOff dt s n = p.A_s * (δ * (s n).d + fromPonds dt i s n) := by rw [e'] at a; linarith
  refine ⟨r, fun hd => ?_⟩
  rw [hd, mul_zero] at r e'
  exact ⟨by linarith, by rw [r, zero_add]⟩

/-- A dry step of an unsaturated element whose pond can infiltrate within it. -/
theorem dry_pond_step {δ : ℝ} (hp : p.Physical) (hδ : 1 ≤ δ) {u : GA} (hd : 0 ≤ u.d) (hsat : u.sat = false)
    (hK : u.d / δ ≤ p.Ks) :
    ∃ u', step p δ 0 u = .ok u' ∧ u'.f = u.d / δ ∧ u'.d = u.d * (1 - 1 / δ) ∧ u'.sat = false := by
  have hδ0 : 0 < δ := by linarith
  have hret : ∃ u', step p δ 0 u = .ok u' ∧ u'.f = u.d / δ ∧ u'.sat = false := by
    simp only [step, available, zero_add, infiltrate, hsat, Bool.false_eq_true, if_false, if_pos hK,
      if_neg (not_lt.mpr hK), gt_iff_lt]
    refine ⟨_, rfl, rfl, ?_⟩
    by_cases h : u.d / δ = 0
    · simp only [h, if_true]; rfl
    · simp only [h, if_false]; rfl
  obtain ⟨u', hu', hf, hs'⟩ := hret
  refine ⟨u', hu', hf, ?_, hs'⟩
  have : u.d / δ ≤ u.d := div_le_self hd hδ
  rw [(surface_formula hp hu').1, hf, max_eq_left (by linarith)]
  ring

/-- **C210 (a pond after the rain).** Dry weather, equal steps of `δ ≥ 1` seconds, an unsaturated element whose
pond `d` would infiltrate within one step: the run completes, and the pond yields
`δ d (1 - (1 - 1/δ)^n)` metres of infiltration in `n` steps. -/
theorem C210_dry (hp : p.Physical) {δ : ℝ} (hδ : 1 ≤ δ) {u : GA} (hd : 0 ≤ u.d) (hsat : u.sat = false)
    (hK : u.d / δ ≤ p.Ks) :
    ∃ s : ℕ → GA, s 0 = u ∧ ∀ n, Trace p (fun _ => δ) (fun _ => 0) s n ∧ (s n).d = u.d * (1 - 1 / δ) ^ n ∧
      soaked (fun _ => δ) s n = δ * u.d * (1 - (1 - 1 / δ) ^ n) := by
  have hδ0 : 0 < δ := by linarith
  have hq0 : 0 ≤ 1 - 1 / δ := by rw [sub_nonneg, div_le_one hδ0]; exact hδ
  have hq1 : 1 - 1 / δ ≤ 1 := by have := one_div_pos.mpr hδ0; linarith
  let Ok : Type := { v : GA // 0 ≤ v.d ∧ v.sat = false ∧ v.d / δ ≤ p.Ks }
  have nxt : ∀ v : Ok, ∃ w : Ok, step p δ 0 v.1 = .ok w.1 ∧ w.1.f = v.1.d / δ ∧ w.1.d = v.1.d * (1 - 1 / δ) := by
    rintro ⟨v, h1, h2, h3⟩
    obtain ⟨w, a, b, c, e⟩ := dry_pond_step hp hδ h1 h2 h3
    refine ⟨⟨w, ?_, e, ?_⟩, a, b, c⟩
    · rw [c]; exact mul_nonneg h1 hq0
    · rw [c]
      exact (div_le_div_of_nonneg_right (mul_le_of_le_one_right h1 hq1) hδ0.le).trans h3
  choose g hg using nxt
  let S : ℕ → Ok := fun n => Nat.rec ⟨u, hd, hsat, hK⟩ (fun _ v => g v) n
  have hS : ∀ n, S (n + 1) = g (S n) := fun _ => rfl
  refine ⟨fun n => (S n).1, rfl, fun n => ⟨⟨fun k _ => by rw [hS]; exact (hg _).1, fun _ _ => hδ0⟩, ?_⟩⟩
  have hdn : ∀ n, (S n).1.d = u.d * (1 - 1 / δ) ^ n := by
    intro n
    induction n with
    | zero => simp [S]
    | succ n ih => rw [hS, (hg _).2.2, ih, pow_succ]; ring
  refine ⟨hdn n, ?_⟩
  induction n with
  | zero => simp [soaked]
  | succ n ih =>
    have : soaked (fun _ => δ) (fun n => (S n).1) (n + 1)
        = soaked (fun _ => δ) (fun n => (S n).1) n + δ * (S (n + 1)).1.f := sum_range_succ _ _
    rw [this, ih, hS, (hg _).2.1, hdn, pow_succ]
    field_simp
    ring

/-- **C210 (how much water a pond becomes).** The infiltration from that pond tends to `δ d`: with steps of a
minute a pond of one centimetre ends as sixty centimetres of infiltrated water. -/
theorem C210_dry_limit (hp : p.Physical) {δ : ℝ} (hδ : 1 ≤ δ) {u : GA} (hd : 0 ≤ u.d) (hsat : u.sat = false)
    (hK : u.d / δ ≤ p.Ks) :
    ∃ s : ℕ → GA, s 0 = u ∧ (∀ n, Trace p (fun _ => δ) (fun _ => 0) s n) ∧
      Filter.Tendsto (fun n => soaked (fun _ => δ) s n) Filter.atTop (nhds (δ * u.d)) := by
  obtain ⟨s, h0, h⟩ := C210_dry hp hδ hd hsat hK
  refine ⟨s, h0, fun n => (h n).1, ?_⟩
  have hδ0 : 0 < δ := by linarith
  have hq0 : 0 ≤ 1 - 1 / δ := by rw [sub_nonneg, div_le_one hδ0]; exact hδ
  have hq1 : 1 - 1 / δ < 1 := by have := one_div_pos.mpr hδ0; linarith
  have := ((tendsto_pow_atTop_nhds_zero_of_lt_one hq0 hq1).const_sub 1).const_mul (δ * u.d)
  rw [sub_zero, mul_one] at this
  exact this.congr fun n => (h n).2.2.symm

/-- **C210 (objects with many elements).** Every element of a `GreenAmpt` object keeps such an account: the
sequence of its values is a `Trace`, so the theorems above apply to it. -/
theorem C210_object {N : ℕ} {ps : ℕ → Soil} {i : ℕ → ℕ → ℝ} {s : ℕ → GAs}
    (h : ∀ k < n, stepA N ps (dt k) (i k) (s k) = .ok (s (k + 1))) (hdt : ∀ k < n, 0 < dt k) {j : ℕ} (hj : j < N)
    (hp : (ps j).Physical) :
    Trace (ps j) dt (fun k => i k j) (fun k => (s k).cell j) n ∧
      (ps j).A_s * ∑ k ∈ range n, dt k * (s (k + 1)).f j + ∑ k ∈ range n, dt k * (s (k + 1)).Q j
        = (ps j).A_s * (∑ k ∈ range n, dt k * i k j + ∑ k ∈ range n, dt k * max ((s (k + 1)).f j - i k j) 0) := by
  have t : Trace (ps j) dt (fun k => i k j) (fun k => (s k).cell j) n :=
    ⟨fun k hk => (C207_step (h k hk)).2 j hj, hdt⟩
  exact ⟨t, C210_account hp t⟩

/-- **C35, C36 (every element of an object).** In an object with many elements each of them stays within its range,
and none infiltrates more than its own rain and pond supply. -/
theorem C35_object {N : ℕ} {ps : ℕ → Soil} {i : ℕ → ℕ → ℝ} {s : ℕ → GAs}
    (h : ∀ k < n, stepA N ps (dt k) (i k) (s k) = .ok (s (k + 1))) (hdt : ∀ k < n, 0 < dt k) {j : ℕ} (hj : j < N)
    (hp : (ps j).Physical) (hs : InRange (ps j) ((s 0).cell j)) :
    ∀ k ≤ n, InRange (ps j) ((s k).cell j) ∧ (k < n → (s (k + 1)).f j ≤ i k j + (s k).d j / dt k) := by
  have t := (C210_object h hdt hj hp).1
  intro k hk
  have r := t.inRange hp hs k hk
  exact ⟨r, fun hk' => C36_supply hp (hdt k hk') r (t.steps k hk')⟩

/-- A pond of one millimetre on sand, steps of a minute, no rain: after 60 steps 37 mm have infiltrated. -/
example : let sand : Soil := ⟨0.05, 3e-5, 0.4, 100⟩
    let u : GA := { initial sand with d := 1e-3 }
    ∃ s : ℕ → GA, s 0 = u ∧ Trace sand (fun _ => 60) (fun _ => 0) s 60 ∧ 0.037 < soaked (fun _ => 60) s 60 ∧
      ¬ (sand.A_s * soaked (fun _ => 60) s 60 + ranOff (fun _ => 60) s 60
        = sand.A_s * fallen (fun _ => 60) (fun _ => 0) 60) := by
  intro sand u
  have hp : sand.Physical := ⟨by norm_num [sand], by norm_num [sand], by norm_num [sand], by norm_num [sand]⟩
  obtain ⟨s, h0, h⟩ := C210_dry hp (δ := 60) (u := u) (by norm_num) (by norm_num [u]) rfl (by norm_num [u, sand])
  have hv : 0.037 < soaked (fun _ => 60) s 60 := by rw [(h 60).2.2]; norm_num [u]
  refine ⟨s, h0, (h 60).1, hv, fun hb => ?_⟩
  have hle := ((C210_balanced_iff hp (by norm_num [sand]) (h 60).1).1.mp hb)
  have : soaked (fun _ => 60) s 60 ≤ 0 := sum_nonpos fun k hk => by have := hle k (mem_range.mp hk); linarith
  linarith

end Pipedream.Infiltration
