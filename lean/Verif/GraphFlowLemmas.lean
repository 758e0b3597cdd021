import Mathlib.LinearAlgebra.Dual.Lemmas
import Mathlib.Analysis.Calculus.LocalExtr.Basic
import Mathlib.MeasureTheory.Integral.IntervalIntegral.FundThmCalculus
import Mathlib.Analysis.SpecialFunctions.Integrals.Basic
import Mathlib.Topology.MetricSpace.ProperSpace.Lemmas

/-!
# Flows in a network of nonlinear resistances

A network of resistances whose losses grow at least linearly carries a flow for every choice of fixed heads and
inflows for which the parts without a fixed head are in balance. No model is involved: nodes and edges are
numbered, a loss function per edge is given.
-/

namespace Pipedream.Graph

open Finset

variable {M N : ℕ}

/-- Water arriving at node `i` through the edges. -/
def net (Ju Jd : Fin N → Fin M) (x : Fin N → ℝ) (i : Fin M) : ℝ :=
  ∑ k, ((if Jd k = i then x k else 0) - (if Ju k = i then x k else 0))

theorem net_add (Ju Jd : Fin N → Fin M) (x y : Fin N → ℝ) (i : Fin M) :
    net Ju Jd (x + y) i = net Ju Jd x i + net Ju Jd y i := by
  unfold net
  rw [← sum_add_distrib]
  refine sum_congr rfl fun k _ => ?_
  simp only [Pi.add_apply]
  split_ifs <;> ring

theorem net_smul (Ju Jd : Fin N → Fin M) (c : ℝ) (x : Fin N → ℝ) (i : Fin M) :
    net Ju Jd (c • x) i = c * net Ju Jd x i := by
  unfold net
  rw [mul_sum]
  refine sum_congr rfl fun k _ => ?_
  simp only [Pi.smul_apply, smul_eq_mul]
  split_ifs <;> ring

/-- `net` at a node as a linear form. -/
def netL (Ju Jd : Fin N → Fin M) (i : Fin M) : (Fin N → ℝ) →ₗ[ℝ] ℝ where
  toFun x := net Ju Jd x i
  map_add' x y := net_add Ju Jd x y i
  map_smul' c x := net_smul Ju Jd c x i

theorem weighted_net (Ju Jd : Fin N → Fin M) (g : Fin M → ℝ) (x : Fin N → ℝ) :
    ∑ i, g i * net Ju Jd x i = ∑ k, (g (Jd k) - g (Ju k)) * x k := by
  unfold net
  simp only [mul_sum]
  rw [sum_comm]
  refine sum_congr rfl fun k _ => ?_
  simp only [mul_sub, mul_ite, mul_zero, sum_sub_distrib, sum_ite_eq, mem_univ, if_true]
  ring

/-- The parts of the network without a fixed head are in balance. -/
def PartsBalance (Ju Jd : Fin N → Fin M) (bc : Fin M → Bool) (b : Fin M → ℝ) : Prop :=
  ∀ S : Finset (Fin M), (∀ k, Ju k ∈ S ↔ Jd k ∈ S) → (∀ i ∈ S, bc i = false) → ∑ i ∈ S, b i = 0

theorem PartsBalance.weighted {Ju Jd : Fin N → Fin M} {bc : Fin M → Bool} {b : Fin M → ℝ}
    (h : PartsBalance Ju Jd bc b) {g : Fin M → ℝ} (hg : ∀ k, g (Jd k) = g (Ju k))
    (h0 : ∀ i, bc i = true → g i = 0) : ∑ i, g i * b i = 0 := by
  rw [← sum_fiberwise_of_maps_to (t := univ.image g) (g := g) (fun i _ => mem_image_of_mem g (mem_univ i))]
  refine sum_eq_zero fun v _ => ?_
  have e : ∑ i with g i = v, g i * b i = v * ∑ i with g i = v, b i := by
    rw [mul_sum]
    exact sum_congr rfl fun i hi => by rw [(mem_filter.mp hi).2]
  rw [e]
  by_cases hv : v = 0
  · rw [hv, zero_mul]
  · rw [h _ (fun k => by simp [hg k]) (fun i hi => ?_), mul_zero]
    by_contra hb
    have hi := (mem_filter.mp hi).2
    rw [h0 i (by simpa using hb)] at hi
    exact hv hi.symm

/-- Some flow satisfies the balance at all nodes without fixed head. -/
theorem exists_feasible {Ju Jd : Fin N → Fin M} {bc : Fin M → Bool} {b : Fin M → ℝ}
    (h : PartsBalance Ju Jd bc b) : ∃ x, ∀ i, bc i = false → net Ju Jd x i = -b i := by
  classical
  let A : (Fin N → ℝ) →ₗ[ℝ] (Fin M → ℝ) :=
    LinearMap.pi fun i => if bc i then 0 else netL Ju Jd i
  have hA : ∀ x i, A x i = if bc i then 0 else net Ju Jd x i := by
    intro x i
    show (if bc i = true then (0 : (Fin N → ℝ) →ₗ[ℝ] ℝ) else netL Ju Jd i) x = _
    split_ifs <;> rfl
  let t : Fin M → ℝ := fun i => if bc i then 0 else -b i
  by_cases ht : t ∈ LinearMap.range A
  · obtain ⟨x, hx⟩ := ht
    refine ⟨x, fun i hi => ?_⟩
    have := congrFun hx i
    rw [hA] at this
    simpa [t, hi] using this
  · exfalso
    obtain ⟨f, hf, hk⟩ := Submodule.exists_le_ker_of_notMem ht
    have hrep : ∀ x : Fin M → ℝ, f x = ∑ i, x i * f (Pi.single i 1) := by
      intro x
      conv_lhs => rw [← univ_sum_single x, map_sum]
      refine sum_congr rfl fun i _ => ?_
      rw [← mul_one (x i), ← smul_eq_mul, Pi.single_smul, map_smul, smul_eq_mul, smul_eq_mul, mul_one]
    let g : Fin M → ℝ := fun i => if bc i then 0 else f (Pi.single i 1)
    have hfA : ∀ x, ∑ i, g i * net Ju Jd x i = 0 := by
      intro x
      have h1 : f (A x) = 0 := LinearMap.mem_ker.mp (hk ⟨x, rfl⟩)
      rw [hrep] at h1
      rw [← h1]
      refine sum_congr rfl fun i _ => ?_
      rw [hA]
      simp only [g]
      split_ifs <;> ring
    have hg : ∀ k, g (Jd k) = g (Ju k) := by
      intro k
      have := hfA (Pi.single k 1)
      rw [weighted_net] at this
      simp only [Pi.single_apply, mul_ite, mul_one, mul_zero, sum_ite_eq', mem_univ, if_true] at this
      linarith
    have := h.weighted hg (fun i hi => by simp [g, hi])
    apply hf
    rw [hrep]
    have e : ∀ i, t i * f (Pi.single i 1) = -(g i * b i) := by
      intro i
      simp only [t, g]
      split_ifs <;> ring
    simp only [e, sum_neg_distrib, this, neg_zero]

/-! ### The minimum of the content -/

theorem primitive_ge {L : ℝ → ℝ} (hL : Continuous L) {c : ℝ} (hp : ∀ q, 0 ≤ q → c * (q - 1) ≤ L q)
    (hn : ∀ q, q ≤ 0 → L q ≤ c * (q + 1)) (q : ℝ) : c * (q ^ 2 / 2 - |q|) ≤ ∫ t in (0 : ℝ)..q, L t := by
  rcases le_total 0 q with h | h
  · have := intervalIntegral.integral_mono_on (μ := MeasureTheory.volume) h
      (Continuous.intervalIntegrable (by fun_prop : Continuous fun t : ℝ => c * (t - 1)) 0 q)
      (hL.intervalIntegrable 0 q) (fun t ht => hp t ht.1)
    refine le_trans (le_of_eq ?_) this
    rw [intervalIntegral.integral_const_mul, intervalIntegral.integral_sub (by simp) (by simp), integral_id,
      intervalIntegral.integral_const, abs_of_nonneg h]
    simp
  · have := intervalIntegral.integral_mono_on (μ := MeasureTheory.volume) h
      (hL.intervalIntegrable q 0)
      (Continuous.intervalIntegrable (by fun_prop : Continuous fun t : ℝ => c * (t + 1)) q 0)
      (fun t ht => hn t ht.2)
    rw [intervalIntegral.integral_symm]
    refine le_trans (le_of_eq ?_) (neg_le_neg this)
    rw [intervalIntegral.integral_const_mul, intervalIntegral.integral_add (by simp) (by simp), integral_id,
      intervalIntegral.integral_const, abs_of_nonpos h]
    simp
    ring

/-- **Existence of a network flow.** -/
theorem exists_flow {Ju Jd : Fin N → Fin M} {bc : Fin M → Bool} {b f : Fin M → ℝ} {L : Fin N → ℝ → ℝ}
    (hL : ∀ k, Continuous (L k))
    (hgrow : ∀ k, ∃ c, 0 < c ∧ (∀ q, 0 ≤ q → c * (q - 1) ≤ L k q) ∧ ∀ q, q ≤ 0 → L k q ≤ c * (q + 1))
    (h : PartsBalance Ju Jd bc b) :
    ∃ (H : Fin M → ℝ) (x : Fin N → ℝ), (∀ i, bc i = true → H i = f i) ∧
      (∀ k, H (Ju k) - H (Jd k) = L k (x k)) ∧ ∀ i, bc i = false → b i + net Ju Jd x i = 0 := by
  classical
  choose c hc hp hn using hgrow
  let P : Fin N → ℝ → ℝ := fun k q => ∫ t in (0 : ℝ)..q, L k t
  have hP : ∀ k q, HasDerivAt (P k) (L k q) q := fun k q => (hL k).integral_hasStrictDerivAt 0 q |>.hasDerivAt
  let w : Fin M → ℝ := fun i => if bc i then f i else 0
  let d : Fin N → ℝ := fun k => w (Jd k) - w (Ju k)
  let E : (Fin N → ℝ) → ℝ := fun x => ∑ k, (P k (x k) + d k * x k)
  have hE : Continuous E := continuous_finsetSum _ fun k _ =>
    (((continuous_iff_continuousAt.mpr fun q => (hP k q).continuousAt).comp (continuous_apply k)).add
      (continuous_const.mul (continuous_apply k)))
  let S : Set (Fin N → ℝ) := {x | ∀ i, bc i = false → net Ju Jd x i = -b i}
  have hS : IsClosed S := by
    have : S = ⋂ i, {x | bc i = false → net Ju Jd x i = -b i} := by ext x; simp [S]
    rw [this]
    refine isClosed_iInter fun i => ?_
    by_cases hb : bc i = false
    · simp only [hb, true_implies]
      refine isClosed_eq ?_ continuous_const
      unfold net
      refine continuous_finsetSum _ fun k _ => ?_
      split_ifs <;> fun_prop
    · simp [hb]
  obtain ⟨x0, hx0⟩ := exists_feasible h
  -- each term grows quadratically
  have hterm : ∀ k q, -(2 * (c k + |d k|) ^ 2 / c k) + c k / 4 * q ^ 2 ≤ P k q + d k * q := by
    intro k q
    have h1 := primitive_ge (hL k) (hp k) (hn k) q
    have h2 : -(|d k| * |q|) ≤ d k * q := by rw [← abs_mul]; exact neg_abs_le _
    have h3 : (c k + |d k|) * |q| ≤ 2 * (c k + |d k|) ^ 2 / c k + c k / 4 * q ^ 2 := by
      have hck := hc k
      have e : 2 * (c k + |d k|) ^ 2 / c k + c k / 4 * q ^ 2 - (c k + |d k|) * |q|
          = (c k * |q| - 2 * (c k + |d k|)) ^ 2 / (4 * c k) + (c k + |d k|) ^ 2 / c k := by
        rw [← sq_abs q]; field_simp; ring
      have : 0 ≤ (c k * |q| - 2 * (c k + |d k|)) ^ 2 / (4 * c k) + (c k + |d k|) ^ 2 / c k := by positivity
      linarith
    have h4 : c k * (q ^ 2 / 2 - |q|) = c k / 4 * q ^ 2 + c k / 4 * q ^ 2 - c k * |q| := by ring
    change _ ≤ P k q at h1
    rw [add_mul] at h3
    linarith
  let B : ℝ := ∑ k, 2 * (c k + |d k|) ^ 2 / c k
  have hcoer : ∀ x k, -B + c k / 4 * x k ^ 2 ≤ E x := by
    intro x k
    have h1 : ∑ j, (-(2 * (c j + |d j|) ^ 2 / c j) + c j / 4 * x j ^ 2) ≤ E x := sum_le_sum fun j _ => hterm j (x j)
    rw [sum_add_distrib, sum_neg_distrib] at h1
    have h2 : c k / 4 * x k ^ 2 ≤ ∑ j, c j / 4 * x j ^ 2 :=
      single_le_sum (f := fun j => c j / 4 * x j ^ 2) (fun j _ => by have := hc j; positivity) (mem_univ k)
    linarith
  have hfar : ∀ᶠ x in Filter.cocompact (Fin N → ℝ) ⊓ Filter.principal S, E x0 ≤ E x := by
    refine Filter.Eventually.filter_mono inf_le_left ?_
    let r : Fin N → ℝ := fun k => Real.sqrt (4 * (|E x0| + |B|) / c k)
    have hK : IsCompact (Set.pi Set.univ fun k => Set.Icc (-r k) (r k)) :=
      isCompact_univ_pi fun k => isCompact_Icc
    filter_upwards [hK.compl_mem_cocompact] with x hx
    simp only [Set.mem_compl_iff, Set.mem_pi, Set.mem_univ, true_implies, not_forall] at hx
    obtain ⟨k, hk⟩ := hx
    have h1 : r k < |x k| := by
      by_contra hcon
      exact hk (abs_le.mp (not_lt.mp hcon))
    have hck := hc k
    have h2 : 4 * (|E x0| + |B|) / c k ≤ x k ^ 2 := by
      rw [← sq_abs (x k), ← Real.sq_sqrt (by positivity : 0 ≤ 4 * (|E x0| + |B|) / c k)]
      exact pow_le_pow_left₀ (Real.sqrt_nonneg _) h1.le 2
    have h3 : |E x0| + |B| ≤ c k / 4 * x k ^ 2 := by
      rw [div_le_iff₀ hck] at h2
      linarith
    linarith [hcoer x k, le_abs_self (E x0), le_abs_self B]
  obtain ⟨x, hxS, hmin⟩ := hE.continuousOn.exists_isMinOn' hS hx0 hfar
  -- the gradient vanishes along circulations
  let grad : (Fin N → ℝ) →ₗ[ℝ] ℝ :=
    { toFun := fun v => ∑ k, (L k (x k) + d k) * v k
      map_add' := fun u v => by
        rw [← sum_add_distrib]; exact sum_congr rfl fun k _ => by simp only [Pi.add_apply]; ring
      map_smul' := fun a v => by
        rw [smul_eq_mul, mul_sum]
        exact sum_congr rfl fun k _ => by
          simp only [Pi.smul_apply, smul_eq_mul, RingHom.id_apply]; ring }
  have hker : ⨅ i, LinearMap.ker (if bc i then (0 : (Fin N → ℝ) →ₗ[ℝ] ℝ) else netL Ju Jd i) ≤ LinearMap.ker grad := by
    intro v hv
    rw [Submodule.mem_iInf] at hv
    have hv' : ∀ i, bc i = false → net Ju Jd v i = 0 := by
      intro i hi
      have := hv i
      rw [LinearMap.mem_ker, hi] at this
      exact this
    rw [LinearMap.mem_ker]
    let φ : ℝ → ℝ := fun t => E (fun k => x k + t * v k)
    have hφ : HasDerivAt φ (grad v) 0 := by
      have : HasDerivAt (fun t => ∑ k, (P k (x k + t * v k) + d k * (x k + t * v k)))
          (∑ k, (L k (x k) + d k) * v k) 0 := by
        refine HasDerivAt.fun_sum fun k _ => ?_
        have hlin : HasDerivAt (fun t : ℝ => x k + t * v k) (v k) 0 := by
          simpa using ((hasDerivAt_id (0 : ℝ)).mul_const (v k)).const_add (x k)
        have h1 : HasDerivAt (P k) (L k (x k)) (x k + 0 * v k) := by simpa using hP k (x k)
        have h2 := (h1.comp 0 hlin).add (hlin.const_mul (d k))
        rw [← add_mul] at h2
        exact h2
      exact this
    have hloc : IsLocalMin φ 0 := Filter.Eventually.of_forall fun t => by
      show E _ ≤ E _
      have e0 : (fun k => x k + 0 * v k) = x := by funext k; simp
      rw [e0]
      refine hmin (fun i hi => ?_)
      have e : (fun k => x k + t * v k) = x + t • v := by funext k; simp
      rw [e, net_add, net_smul, hv' i hi, hxS i hi]
      ring
    exact hloc.hasDerivAt_eq_zero hφ
  obtain ⟨μ, hμ⟩ := (Submodule.mem_span_range_iff_exists_fun ℝ).mp (mem_span_of_iInf_ker_le_ker hker)
  let H : Fin M → ℝ := fun i => if bc i then f i else -μ i
  refine ⟨H, x, fun i hi => by simp [H, hi], fun k => ?_, fun i hi => by rw [hxS i hi]; ring⟩
  have h1 := LinearMap.congr_fun hμ (Pi.single k 1)
  have h2 : grad (Pi.single k 1) = L k (x k) + d k := by
    show ∑ j, (L j (x j) + d j) * (Pi.single k 1 : Fin N → ℝ) j = _
    simp [Pi.single_apply]
  rw [h2, LinearMap.sum_apply] at h1
  have h3 : ∑ i, (μ i • (if bc i then (0 : (Fin N → ℝ) →ₗ[ℝ] ℝ) else netL Ju Jd i)) (Pi.single k 1)
      = ∑ i, (if bc i then 0 else μ i) * net Ju Jd (Pi.single k 1) i := by
    refine sum_congr rfl fun i _ => ?_
    rw [LinearMap.smul_apply, smul_eq_mul]
    split_ifs
    · simp
    · rfl
  rw [h3, weighted_net] at h1
  simp only [Pi.single_apply, mul_ite, mul_one, mul_zero, sum_ite_eq', mem_univ, if_true] at h1
  simp only [H, d, w] at h1 ⊢
  split_ifs at h1 ⊢ <;> linarith

end Pipedream.Graph
