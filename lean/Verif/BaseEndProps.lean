import Verif.BaseEndModel
import Verif.EndBcModel
import Verif.SuperlinkProps
import Mathlib.Tactic.FieldSimp
import Mathlib.Tactic.LinearCombination
import Mathlib.Tactic.NormNum

/-!
# C126: do both classes close a superlink with the same end relations?

Specification: `Superlink.EndRelations` (the four relations of C04), and the linear relation `h = κ Q + λ H + μ` read at
the state it was linearised at.
-/

namespace Pipedream.Base

open Pipedream.Sweep Pipedream.Superlink

variable {K : Type*} [Field K] [LinearOrder K]

/-- The head coefficients of the base class with `bc_method='z'`. -/
def headZ (g : K) (u d : End K) : HeadCoef K :=
  { kappa_u := gammaU u.Q u.C u.A g, lam_u := 1, mu_u := -u.z
    kappa_d := gammaD d.Q d.C d.A g, lam_d := 1, mu_d := -d.z }

/-- The head coefficients of the numba class carry the indicators. -/
def weigh (hc : HeadCoef K) (θu θd : K) : HeadCoef K :=
  { hc with lam_u := θu * hc.lam_u, mu_u := θu * hc.mu_u, lam_d := θd * hc.lam_d, mu_d := θd * hc.mu_d }

theorem heads_z (g : K) (u d : End K) : heads "z" g u d = .ok (headZ g u d) := by simp [heads, headZ]

/-! ### The same flows -/

/-- The indicators enter the flow coefficients of the base class as they enter the head coefficients of the numba
class: whatever the head relation, the end flows are those of the weighed relation. -/
theorem C126_flows (r : EndRec K) (hc : HeadCoef K) (θu θd Hu Hd : K) :
    Qu r hc θu θd Hu Hd = Quk r (weigh hc θu θd) Hu Hd ∧ Qd r hc θu θd Hu Hd = Qdk r (weigh hc θu θd) Hu Hd := by
  have e : DkStar r (weigh hc θu θd) = DkStar r hc := rfl
  constructor
  · simp only [Qu, Quk, alphaU, betaU, chiU, alphaUk, betaUk, chiUk, e, safeDivide_eq]
    simp only [weigh]
    ring
  · simp only [Qd, Qdk, alphaD, betaD, chiD, alphaDk, betaDk, chiDk, e, safeDivide_eq]
    simp only [weigh]
    ring

/-- With `bc_method='z'` and unit (or absent) discharge losses the base class computes the flows of the numba class. -/
theorem C126_flows_z_partial (r : EndRec K) (g : K) (u d : End K) (Hu Hd : K)
    (eu : gammaU u.Q u.C u.A g = gammaUk u.Q u.C u.A g) (ed : gammaD d.Q d.C d.A g = gammaDk d.Q d.C d.A g) :
    Qu r (headZ g u d) (theta u.H u.z) (theta d.H d.z) Hu Hd
        = Quk r (headCoefZ g u.H d.H u.Q d.Q u.C d.C u.A d.A u.z d.z) Hu Hd ∧
    Qd r (headZ g u d) (theta u.H u.z) (theta d.H d.z) Hu Hd
        = Qdk r (headCoefZ g u.H d.H u.Q d.Q u.C d.C u.A d.A u.z d.z) Hu Hd := by
  have e : weigh (headZ g u d) (theta u.H u.z) (theta d.H d.z)
      = headCoefZ g u.H d.H u.Q d.Q u.C d.C u.A d.A u.z d.z := by
    simp only [weigh, headZ, headCoefZ, eu, ed, mul_one]
    congr 1 <;> ring
  have := C126_flows r (headZ g u d) (theta u.H u.z) (theta d.H d.z) Hu Hd
  rwa [e] at this

/-! ### The discharge coefficient -/

variable [IsStrictOrderedRing K]

theorem sq_inv_iff {C : K} (hC : 0 ≤ C) : (C ^ 2)⁻¹ = C ↔ C = 0 ∨ C = 1 := by
  constructor
  · intro h
    rcases eq_or_ne C 0 with h0 | h0
    · exact Or.inl h0
    · right
      have h3 : C ^ 3 = 1 := by
        have : C ^ 2 * (C ^ 2)⁻¹ = 1 := mul_inv_cancel₀ (pow_ne_zero 2 h0)
        rw [h] at this
        linear_combination this
      have hf : (C - 1) * (C ^ 2 + C + 1) = 0 := by linear_combination h3
      rcases mul_eq_zero.mp hf with h1 | h1
      · exact sub_eq_zero.mp h1
      · exact absurd h1 (by positivity)
  · rintro (rfl | rfl) <;> simp

/-- **C126.** The two classes read the discharge coefficient differently (an orifice coefficient dividing the flow, a
loss coefficient multiplying the velocity head): the upstream head loss agrees exactly when it is zero or the
coefficient is 0 or 1. -/
theorem C126_loss_iff {Q C A g : K} (hC : 0 ≤ C) (hg : 0 < g) :
    gammaU Q C A g = gammaUk Q C A g ↔ Q = 0 ∨ A = 0 ∨ C = 0 ∨ C = 1 := by
  have hb : gammaU Q C A g = (-|Q| / (2 * A ^ 2 * g)) * (C ^ 2)⁻¹ := by
    simp only [gammaU, safeDivide_eq, div_eq_mul_inv, mul_inv]; ring
  have hn : gammaUk Q C A g = (-|Q| / (2 * A ^ 2 * g)) * C := by
    simp only [gammaUk, safeDivide_eq, div_eq_mul_inv]; ring
  rw [hb, hn, mul_eq_mul_left_iff, sq_inv_iff hC, div_eq_zero_iff]
  have : 2 * A ^ 2 * g = 0 ↔ A = 0 := by simp [hg.ne']
  rw [this, neg_eq_zero, abs_eq_zero]
  tauto

/-- The same downstream. -/
theorem C126_loss_down_iff {Q C A g : K} (hC : 0 ≤ C) (hg : 0 < g) :
    gammaD Q C A g = gammaDk Q C A g ↔ Q = 0 ∨ A = 0 ∨ C = 0 ∨ C = 1 := by
  rw [← C126_loss_iff hC hg, ← neg_inj]
  have e1 : -gammaD Q C A g = gammaU Q C A g := by
    simp only [gammaU, gammaD, safeDivide_eq]; ring
  have e2 : -gammaDk Q C A g = gammaUk Q C A g := by
    simp only [gammaUk, gammaDk, safeDivide_eq]; ring
  rw [e1, e2]

/-- Below one the base class loses more head than the numba class, for every flow through a wet end. -/
theorem C126_loss_larger {Q C A g : K} (hC : 0 < C) (hC1 : C < 1) (hg : 0 < g) (hQ : Q ≠ 0) (hA : A ≠ 0) :
    |gammaUk Q C A g| < |gammaU Q C A g| := by
  have hp : 0 < |Q| / (2 * A ^ 2 * g) := by positivity
  have hb : gammaU Q C A g = -((|Q| / (2 * A ^ 2 * g)) * (C ^ 2)⁻¹) := by
    simp only [gammaU, safeDivide_eq, div_eq_mul_inv, mul_inv]; ring
  have hn : gammaUk Q C A g = -((|Q| / (2 * A ^ 2 * g)) * C) := by
    simp only [gammaUk, safeDivide_eq, div_eq_mul_inv]; ring
  have hi : 0 < (C ^ 2)⁻¹ := by positivity
  rw [hb, hn, abs_neg, abs_neg, abs_of_pos (mul_pos hp hC), abs_of_pos (mul_pos hp hi)]
  refine mul_lt_mul_of_pos_left (hC1.trans_le ?_) hp
  exact (one_le_inv₀ (by positivity)).mpr (pow_le_one₀ hC.le hC1.le)

/-! ### The reported depths -/

omit [IsStrictOrderedRing K] in
/-- **C126.** The depths of the base class leave the indicators out: they differ from those that go with the flows by
the head below the invert. -/
theorem C126_depth (r : EndRec K) (g : K) (u d : End K) (θu θd Hu Hd : K) :
    hu r (headZ g u d) θu θd Hu Hd
        = huk r (weigh (headZ g u d) θu θd) Hu Hd + (1 - θu) * (Hu - u.z) ∧
    hd r (headZ g u d) θu θd Hu Hd
        = hdk r (weigh (headZ g u d) θu θd) Hu Hd + (1 - θd) * (Hd - d.z) := by
  obtain ⟨q1, q2⟩ := C126_flows r (headZ g u d) θu θd Hu Hd
  constructor
  · simp only [hu, huk, q1]; simp only [weigh, headZ]; ring
  · simp only [hd, hdk, q2]; simp only [weigh, headZ]; ring

omit [IsStrictOrderedRing K] in
/-- **C126.** Flows and depths of the base class satisfy the backward relation exactly when the heads missing at the ends
cancel, and likewise the forward one. -/
theorem C126_relations_iff (r : EndRec K) (g : K) (u d : End K) (θu θd Hu Hd : K)
    (hD : DkStar r (headZ g u d) ≠ 0) :
    (Qu r (headZ g u d) θu θd Hu Hd = r.X * hu r (headZ g u d) θu θd Hu Hd + r.Y + r.Z * hd r (headZ g u d) θu θd Hu Hd
      ↔ r.X * ((1 - θu) * (Hu - u.z)) + r.Z * ((1 - θd) * (Hd - d.z)) = 0) ∧
    (Qd r (headZ g u d) θu θd Hu Hd = r.U * hd r (headZ g u d) θu θd Hu Hd + r.V + r.W * hu r (headZ g u d) θu θd Hu Hd
      ↔ r.U * ((1 - θd) * (Hd - d.z)) + r.W * ((1 - θu) * (Hu - u.z)) = 0) := by
  obtain ⟨q1, q2⟩ := C126_flows r (headZ g u d) θu θd Hu Hd
  obtain ⟨h1, h2⟩ := C126_depth r g u d θu θd Hu Hd
  obtain ⟨b, f, -, -⟩ := C04_end_relations r (weigh (headZ g u d) θu θd) Hu Hd hD
  rw [q1, q2, h1, h2]
  constructor
  · constructor
    · intro h; linear_combination b - h
    · intro h; linear_combination b - h
  · constructor
    · intro h; linear_combination f - h
    · intro h; linear_combination f - h

omit [IsStrictOrderedRing K] in
/-- With both heads at or above the inverts all four relations of C04 hold. -/
theorem C126_relations_partial (r : EndRec K) (g : K) (u d : End K) (Hu Hd : K)
    (hD : DkStar r (headZ g u d) ≠ 0) (h1 : u.z ≤ u.H) (h2 : d.z ≤ d.H) :
    EndRelations r (headZ g u d) Hu Hd (Qu r (headZ g u d) (theta u.H u.z) (theta d.H d.z) Hu Hd)
      (Qd r (headZ g u d) (theta u.H u.z) (theta d.H d.z) Hu Hd)
      (hu r (headZ g u d) (theta u.H u.z) (theta d.H d.z) Hu Hd)
      (hd r (headZ g u d) (theta u.H u.z) (theta d.H d.z) Hu Hd) := by
  have t1 : theta u.H u.z = 1 := if_pos h1
  have t2 : theta d.H d.z = 1 := if_pos h2
  obtain ⟨b, f⟩ := C126_relations_iff r g u d (theta u.H u.z) (theta d.H d.z) Hu Hd hD
  refine ⟨b.mpr ?_, f.mpr ?_, rfl, rfl⟩ <;> rw [t1, t2] <;> ring

omit [IsStrictOrderedRing K] in
/-- Whatever the method, with both indicators 1 the flows and depths of the base class satisfy all four relations of C04 for its
own head coefficients. -/
theorem C126_any_method_partial (r : EndRec K) (hc : HeadCoef K) (Hu Hd : K) (hD : DkStar r hc ≠ 0) :
    EndRelations r hc Hu Hd (Qu r hc 1 1 Hu Hd) (Qd r hc 1 1 Hu Hd) (hu r hc 1 1 Hu Hd) (hd r hc 1 1 Hu Hd) := by
  have e : weigh hc 1 1 = hc := by simp [weigh]
  obtain ⟨q1, q2⟩ := C126_flows r hc 1 1 Hu Hd
  rw [e] at q1 q2
  have h1 : hu r hc 1 1 Hu Hd = huk r hc Hu Hd := by simp only [hu, huk, q1]
  have h2 : hd r hc 1 1 Hu Hd = hdk r hc Hu Hd := by simp only [hd, hdk, q2]
  have h := C04_end_relations r hc Hu Hd hD
  rw [q1, q2, h1, h2]
  exact ⟨h.backward, h.forward, h.upstream, h.downstream⟩

/-- A dry superjunction below the invert of a superlink at rest: the base class reports a negative depth, the head minus
the invert, and the numba class reports zero. -/
theorem C126_negative_depth (r : EndRec K) (g : K) (u d : End K) (Hd : K) (hQ : u.Q = 0) (hz : u.H < u.z) :
    hu r (headZ g u d) (theta u.H u.z) (theta d.H d.z) u.H Hd = u.H - u.z ∧
    huk r (headCoefZ g u.H d.H u.Q d.Q u.C d.C u.A d.A u.z d.z) u.H Hd = 0 := by
  have t : theta u.H u.z = 0 := if_neg (not_le.mpr hz)
  constructor
  · simp only [hu, headZ, gammaU, hQ, safeDivide_eq, abs_zero, neg_zero, zero_div]; ring
  · simp only [huk, headCoefZ, gammaUk, hQ, t, safeDivide_eq, abs_zero, neg_zero, zero_div, zero_mul]; ring

/-! ### The relation of Ji -/

/-- Linearising the loss `dH ∝ Q² / A²` at the state it is read from must reproduce that state (specification). -/
def Reproduces (κ l μ H Q h : K) : Prop := h = κ * Q + l * H + μ

/-- **C126.** Upstream, `bc_method='j'` reproduces the current depth exactly when there is no head difference or the
section is as wide as a rectangle of its area and depth. -/
theorem C126_ji_upstream_iff {e : End K} (hQ : e.Q ≠ 0) (hden : 2 * (e.H - e.h - e.z) * e.B - e.A ≠ 0) :
    Reproduces (kappaU e.A (e.H - e.h - e.z) e.Q e.B) (lambdaU e.A (e.H - e.h - e.z) e.B)
        (muU e.A (e.H - e.h - e.z) e.B e.z) e.H e.Q e.h
      ↔ e.H = e.h + e.z ∨ e.A = e.B * e.h := by
  have key : kappaU e.A (e.H - e.h - e.z) e.Q e.B * e.Q + lambdaU e.A (e.H - e.h - e.z) e.B * e.H
      + muU e.A (e.H - e.h - e.z) e.B e.z
      = e.h + 2 * ((e.H - e.h - e.z) * (e.A - e.B * e.h)) / (2 * (e.H - e.h - e.z) * e.B - e.A) := by
    simp only [kappaU, lambdaU, muU, safeDivide_eq]
    field_simp
    ring
  rw [Reproduces, key, left_eq_add, div_eq_zero_iff, or_iff_left hden, mul_eq_zero, or_iff_right two_ne_zero,
    mul_eq_zero]
  refine or_congr ⟨fun h => ?_, fun h => ?_⟩ sub_eq_zero
  · linear_combination h
  · linear_combination h

/-- Downstream the condition is the same. -/
theorem C126_ji_downstream_iff {e : End K} (hQ : e.Q ≠ 0) (hden : 2 * (e.h + e.z - e.H) * e.B + e.A ≠ 0) :
    Reproduces (kappaD e.A (e.h + e.z - e.H) e.Q e.B) (lambdaD e.A (e.h + e.z - e.H) e.B)
        (muD e.A (e.h + e.z - e.H) e.B e.z) e.H e.Q e.h
      ↔ e.H = e.h + e.z ∨ e.A = e.B * e.h := by
  have key : kappaD e.A (e.h + e.z - e.H) e.Q e.B * e.Q + lambdaD e.A (e.h + e.z - e.H) e.B * e.H
      + muD e.A (e.h + e.z - e.H) e.B e.z
      = e.h + 2 * ((e.h + e.z - e.H) * (e.A - e.B * e.h)) / (2 * (e.h + e.z - e.H) * e.B + e.A) := by
    simp only [kappaD, lambdaD, muD, safeDivide_eq]
    field_simp
    ring
  rw [Reproduces, key, left_eq_add, div_eq_zero_iff, or_iff_left hden, mul_eq_zero, or_iff_right two_ne_zero,
    mul_eq_zero]
  refine or_congr ⟨fun h => ?_, fun h => ?_⟩ sub_eq_zero
  · linear_combination -h
  · linear_combination -h

/-- **C126 (what the default method gives).** The depths reported with `bc_method='z'` are the head above the invert
less the loss at the entrance, and plus it at the exit. -/
theorem C126_depths_z (r : EndRec K) (g : K) (u d : End K) (hc : HeadCoef K) (h : heads "z" g u d = .ok hc)
    (θu θd Hu Hd : K) :
    hu r hc θu θd Hu Hd = Hu - u.z - |u.Q| * Qu r hc θu θd Hu Hd / (2 * u.C ^ 2 * u.A ^ 2 * g) ∧
    hd r hc θu θd Hu Hd = Hd - d.z + |d.Q| * Qd r hc θu θd Hu Hd / (2 * d.C ^ 2 * d.A ^ 2 * g) := by
  have e : heads "z" g u d = .ok
    { kappa_u := gammaU u.Q u.C u.A g, lam_u := 1, mu_u := -u.z
      kappa_d := gammaD d.Q d.C d.A g, lam_d := 1, mu_d := -d.z } := by simp [heads]
  rw [e] at h
  injection h with h
  constructor
  · unfold hu
    generalize Qu r hc θu θd Hu Hd = q
    rw [← h]
    simp only [gammaU, safeDivide_eq]
    ring
  · unfold hd
    generalize Qd r hc θu θd Hu Hd = q
    rw [← h]
    simp only [gammaD, safeDivide_eq]
    ring

/-- **C126 (what the other method gives).** The relations `bc_method='j'` closes a superlink with reproduce the state
they were taken at exactly when at each end there is no head difference or the section is a rectangle's. -/
theorem C126_ji_iff (g : K) (u d : End K) (hc : HeadCoef K) (h : heads "j" g u d = .ok hc) (hu : u.Q ≠ 0) (hd : d.Q ≠ 0)
    (du : 2 * (u.H - u.h - u.z) * u.B - u.A ≠ 0) (dd : 2 * (d.h + d.z - d.H) * d.B + d.A ≠ 0) :
    (u.h = hc.kappa_u * u.Q + hc.lam_u * u.H + hc.mu_u ↔ u.H = u.h + u.z ∨ u.A = u.B * u.h) ∧
    (d.h = hc.kappa_d * d.Q + hc.lam_d * d.H + hc.mu_d ↔ d.H = d.h + d.z ∨ d.A = d.B * d.h) := by
  have e : heads "j" g u d = .ok
    { kappa_u := kappaU u.A (u.H - u.h - u.z) u.Q u.B, lam_u := lambdaU u.A (u.H - u.h - u.z) u.B
      mu_u := muU u.A (u.H - u.h - u.z) u.B u.z
      kappa_d := kappaD d.A (d.h + d.z - d.H) d.Q d.B, lam_d := lambdaD d.A (d.h + d.z - d.H) d.B
      mu_d := muD d.A (d.h + d.z - d.H) d.B d.z } := by simp [heads]
  rw [e] at h
  injection h with h
  rw [← h]
  exact ⟨C126_ji_upstream_iff hu du, C126_ji_downstream_iff hd dd⟩

/-! ### The accepted methods -/

omit [IsStrictOrderedRing K] in
/-- The base class accepts `'z'` and `'j'` only. -/
theorem C126_base_methods (m : String) (g : K) (u d : End K) :
    heads m g u d = .error .valueError ↔ m ≠ "z" ∧ m ≠ "j" := by
  unfold heads
  split_ifs with h1 h2
  · simp [h1]
  · simp [h2]
  · simp [h1, h2]

/-- **C126.** `'z'` is the only method that neither class rejects. -/
theorem C126_common_method (m : String) (u d : End ℝ) (e : EndData) (dt g : ℝ)
    (hb : heads m g u d ≠ .error .valueError) (hn : upstreamHead m e dt g ≠ .error .valueError) : m = "z" := by
  by_contra hz
  have hj : m = "j" := by
    by_contra hj
    exact hb ((C126_base_methods m g u d).mpr ⟨hz, hj⟩)
  subst hj
  exact hn (by simp [upstreamHead])

/-! ### Cases -/

/-- Superjunction heads 1 and 3, inverts 2 and 0, links at rest upstream. -/
def exU : End ℚ := ⟨1, 0, 2/3, 1, 1, 2, 0⟩
def exD : End ℚ := ⟨3, 1, 2/3, 1, 1, 0, 2⟩
def exR : EndRec ℚ := ⟨1, 0, -1, -1, 0, 1⟩

example : DkStar exR (headZ 10 exU exD) ≠ 0 := by
  norm_num [DkStar, exR, headZ, exU, exD, gammaU, gammaD, safeDivide]

/-- **C126 (witness).** The depths reported by the base class contradict the flows reported with them. -/
theorem C126_witness :
    let θu := theta exU.H exU.z
    let θd := theta exD.H exD.z
    let hc := headZ 10 exU exD
    hu exR hc θu θd exU.H exD.H < 0 ∧
    Qu exR hc θu θd exU.H exD.H ≠ exR.X * hu exR hc θu θd exU.H exD.H + exR.Y + exR.Z * hd exR hc θu θd exU.H exD.H := by
  intro θu θd hc
  have hD : DkStar exR hc ≠ 0 := by
    norm_num [hc, DkStar, exR, headZ, exU, exD, gammaU, gammaD, safeDivide]
  refine ⟨?_, fun h => ?_⟩
  · rw [(C126_negative_depth exR 10 exU exD exD.H rfl (by norm_num [exU])).1]
    norm_num [exU]
  · have := (C126_relations_iff exR 10 exU exD θu θd exU.H exD.H hD).1.mp h
    norm_num [θu, θd, theta, exU, exD, exR] at this

/-- A half full triangular section, 2 wide and 1 deep: the relation of Ji does not reproduce its state. -/
example : ¬ Reproduces (kappaU (1:ℚ) (2 - 1 - 0) 1 2) (lambdaU 1 (2 - 1 - 0) 2) (muU 1 (2 - 1 - 0) 2 0) 2 1 1 := by
  have := (C126_ji_upstream_iff (e := (⟨2, 1, 1, 1, 2, 0, 1⟩ : End ℚ)) (by norm_num) (by norm_num)).mp.mt
    (by norm_num)
  simpa using this

/-- A rectangular one does. -/
example : Reproduces (kappaU (2:ℚ) (2 - 1 - 0) 1 2) (lambdaU 2 (2 - 1 - 0) 2) (muU 2 (2 - 1 - 0) 2 0) 2 1 1 := by
  have := (C126_ji_upstream_iff (e := (⟨2, 1, 1, 2, 2, 0, 1⟩ : End ℚ)) (by norm_num) (by norm_num)).mpr
    (Or.inr (by norm_num))
  simpa using this

end Pipedream.Base
