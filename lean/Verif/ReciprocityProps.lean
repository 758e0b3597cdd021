import Verif.LevelProps
import Verif.StabilityProps

/-!
# C197: in still water superjunctions influence each other equally

Water added at one superjunction raises another one by as much as the same water added there would raise the first,
provided the pipes stand still and their ends are below water. Running water carries influence downstream.
-/

namespace Pipedream.Superlink

open Pipedream.Sweep

variable {K : Type*} [Field K] [LinearOrder K] [IsStrictOrderedRing K]

omit [LinearOrder K] [IsStrictOrderedRing K] in
/-- Two solutions of the equations of a superlink without sources: what the one says about the other, carried along. -/
theorem casorati {g : K} {co : Coef K} {n : ℕ} {Q h Q' h' : ℕ → K} {Qu Qd Qu' Qd' : K}
    (S : SaintVenant g (homog co) n Q h Qu Qd) (S' : SaintVenant g (homog co) n Q' h' Qu' Qd') :
    ∀ m, m < n → (∏ i ∈ Finset.range (m + 1), (g * co.A i - co.E (i + 1) * co.c i)) * (h (m + 1) * Q' m - h' (m + 1) * Q m)
      = (∏ i ∈ Finset.range (m + 1), (g * co.A i - co.E i * co.a i)) * (h 0 * Q' 0 - h' 0 * Q 0) := by
  have step : ∀ i, i < n → (g * co.A i - co.E (i + 1) * co.c i) * (h (i + 1) * Q' i - h' (i + 1) * Q i)
      = (g * co.A i - co.E i * co.a i) * (h i * Q' i - h' i * Q i) := by
    intro i hi
    have r := S.reduced hi
    have r' := S'.reduced hi
    simp only [homog, mul_zero, zero_mul, add_zero, sub_zero, zero_add] at r r'
    linear_combination Q' i * r - Q i * r'
  intro m
  induction m with
  | zero => intro hm; simpa using step 0 hm
  | succ m ih =>
    intro hm
    rw [Finset.prod_range_succ, Finset.prod_range_succ (n := m + 1)]
    have c := S.continuity (m + 1) hm.le
    have c' := S'.continuity (m + 1) hm.le
    rw [qIn_succ, qOut_lt _ _ hm] at c c'
    simp only [homog] at c c'
    have e : h (m + 1) * Q' (m + 1) - h' (m + 1) * Q (m + 1) = h (m + 1) * Q' m - h' (m + 1) * Q m := by
      linear_combination h (m + 1) * c' - h' (m + 1) * c
    have s := step (m + 1) hm
    rw [e] at s
    have i := ih (by omega)
    linear_combination (∏ i ∈ Finset.range (m + 1), (g * co.A i - co.E (i + 1) * co.c i)) * s
      + (g * co.A (m + 1) - co.E (m + 1) * co.a (m + 1)) * i

/-- How the flow at one end of a superlink responds to the depth at the other. -/
theorem cross {g : K} {co : Coef K} {n : ℕ} {T U V W O X Y Z : ℕ → K} (hn : 1 ≤ n)
    (ph : Physical g co n) (F : FwdRel g co n T U V W) (B : BwdRel g co n O X Y Z) :
    (∏ i ∈ Finset.range n, (g * co.A i - co.E (i + 1) * co.c i)) * W (n - 1)
      = - (∏ i ∈ Finset.range n, (g * co.A i - co.E i * co.a i)) * Z 0 := by
  have F0 := homog_fwd F
  have B0 := homog_bwd B
  have ph0 : Physical g (homog co) n := ⟨ph.g_pos, ph.A_pos, ph.a_nonpos, ph.c_nonpos, ph.abc_pos, ph.E_nonneg⟩
  have fp := physical_fwdPivots ph0 F0
  have bp := physical_bwdPivots ph0 B0
  have en1 : n - 1 + 1 = n := by omega
  obtain ⟨Q, h, Qu, Qd, S, e0, en⟩ := exists_solution hn F0 fp 1 0
  obtain ⟨Q', h', Qu', Qd', S', e0', en'⟩ := exists_solution hn F0 fp 0 1
  have k := casorati S S' (n - 1) (by omega)
  have q := fwd_sound F0 fp S (n - 1) (by omega)
  have q' := bwd_sound B0 bp S' 0 hn
  rw [en1] at k q
  rw [e0, en] at q
  rw [e0', en'] at q'
  rw [e0, e0', en, en', q, q'] at k
  linear_combination -k

variable {g : K} {co : Coef K} {n : ℕ} {T U V W O X Y Z : ℕ → K}

/-- **C197 (one superlink).** The response of the flow at the downstream end of a superlink to the head upstream and that of
the flow at the upstream end to the head downstream are in a fixed proportion, given by the advection in its links. -/
theorem C197_link (hn : 1 ≤ n) (ph : Physical g co n) (F : FwdRel g co n T U V W) (B : BwdRel g co n O X Y Z)
    (m : EndMethod) (hc : HeadCoef K) :
    hc.lam_d * (∏ i ∈ Finset.range n, (g * co.A i - co.E (i + 1) * co.c i)) * alphaDk (endRec m co n U V W X Y Z) hc
      = - (hc.lam_u * (∏ i ∈ Finset.range n, (g * co.A i - co.E i * co.a i)) * betaUk (endRec m co n U V W X Y Z) hc) := by
  have k := cross hn ph F B
  have eW : (endRec m co n U V W X Y Z).W = W (n - 1) := by cases m <;> rfl
  have eZ : (endRec m co n U V W X Y Z).Z = Z 0 := by cases m <;> rfl
  rw [alphaDk, betaUk, safeDivide_eq, safeDivide_eq, eW, eZ]
  generalize endRec m co n U V W X Y Z = r
  have e1 : (1 - r.X * hc.kappa_u) * W (n - 1) + W (n - 1) * hc.kappa_u * r.X = W (n - 1) := by ring
  have e2 : (1 - r.U * hc.kappa_d) * Z 0 + Z 0 * hc.kappa_d * r.U = Z 0 := by ring
  rw [e1, e2, div_eq_mul_inv, div_eq_mul_inv]
  linear_combination hc.lam_d * hc.lam_u * (DkStar r hc)⁻¹ * k

end Pipedream.Superlink

namespace Pipedream.Network

variable {K : Type*} [Field K] [LinearOrder K] [IsStrictOrderedRing K]

omit [LinearOrder K] [IsStrictOrderedRing K] in
/-- Flows into superjunctions, weighted and added up. -/
theorem inflow_weighted {M n : ℕ} {Ju Jd : ℕ → ℕ} (hu : ∀ k, k < n → Ju k < M) (hd : ∀ k, k < n → Jd k < M)
    (w Qu Qd : ℕ → K) :
    ∑ i ∈ Finset.range M, w i * ∑ k ∈ Finset.range n, ((if Jd k = i then Qd k else 0) - (if Ju k = i then Qu k else 0))
      = ∑ k ∈ Finset.range n, (w (Jd k) * Qd k - w (Ju k) * Qu k) := by
  simp only [Finset.mul_sum]
  rw [Finset.sum_comm]
  refine Finset.sum_congr rfl fun k hk => ?_
  have hk := Finset.mem_range.mp hk
  simp only [mul_sub, mul_ite, mul_zero, Finset.sum_sub_distrib, Finset.sum_ite_eq, Finset.mem_range, hu k hk, hd k hk,
    if_true]

/-- What a control adds to the difference of the two influences. -/
def Ctrls.skew (C : Ctrls K) (d d' : ℕ → K) : K :=
  ∑ k ∈ Finset.range C.n, (C.alpha k + C.beta k) * (d (C.Jd k) * d' (C.Ju k) - d (C.Ju k) * d' (C.Jd k))

/-- What the superlinks add. -/
def Links.skew (L : Links K) (d d' : ℕ → K) : K :=
  ∑ k ∈ Finset.range L.n, (L.alpha_d k + L.beta_u k) * (d (L.Jd k) * d' (L.Ju k) - d (L.Ju k) * d' (L.Jd k))

omit [LinearOrder K] [IsStrictOrderedRing K] in
theorem ctrls_skew {M : ℕ} {C : Ctrls K} (hu : ∀ k, k < C.n → C.Ju k < M) (hd : ∀ k, k < C.n → C.Jd k < M)
    (x x' x'' : ℕ → K) :
    ∑ i ∈ Finset.range M, ((x' i - x i) * (C.inflow x'' i - C.inflow x i)
      - (x'' i - x i) * (C.inflow x' i - C.inflow x i)) = C.skew (fun i => x' i - x i) (fun i => x'' i - x i) := by
  have e : ∀ w y : ℕ → K, ∑ i ∈ Finset.range M, w i * C.inflow y i
      = ∑ k ∈ Finset.range C.n, (w (C.Jd k) * C.Q y k - w (C.Ju k) * C.Q y k) := fun w y =>
    inflow_weighted hu hd w (C.Q y) (C.Q y)
  simp only [mul_sub, Finset.sum_sub_distrib]
  have r := fun y => e (fun i => x' i - x i) y
  have r' := fun y => e (fun i => x'' i - x i) y
  beta_reduce at r r'
  rw [r, r, r', r', Ctrls.skew, ← Finset.sum_sub_distrib, ← Finset.sum_sub_distrib, ← Finset.sum_sub_distrib]
  refine Finset.sum_congr rfl fun k _ => ?_
  simp only [Ctrls.Q]
  ring

omit [LinearOrder K] [IsStrictOrderedRing K] in
theorem links_skew {M : ℕ} {C : Links K} (hu : ∀ k, k < C.n → C.Ju k < M) (hd : ∀ k, k < C.n → C.Jd k < M)
    (x x' x'' : ℕ → K) :
    ∑ i ∈ Finset.range M, ((x' i - x i) * (C.inflow x'' i - C.inflow x i)
      - (x'' i - x i) * (C.inflow x' i - C.inflow x i)) = C.skew (fun i => x' i - x i) (fun i => x'' i - x i) := by
  have e : ∀ w y : ℕ → K, ∑ i ∈ Finset.range M, w i * C.inflow y i
      = ∑ k ∈ Finset.range C.n, (w (C.Jd k) * C.Qd y k - w (C.Ju k) * C.Qu y k) := fun w y =>
    inflow_weighted hu hd w (C.Qu y) (C.Qd y)
  simp only [mul_sub, Finset.sum_sub_distrib]
  have r := fun y => e (fun i => x' i - x i) y
  have r' := fun y => e (fun i => x'' i - x i) y
  beta_reduce at r r'
  rw [r, r, r', r', Links.skew, ← Finset.sum_sub_distrib, ← Finset.sum_sub_distrib, ← Finset.sum_sub_distrib]
  refine Finset.sum_congr rfl fun k _ => ?_
  simp only [Links.Qu, Links.Qd]
  ring

omit [LinearOrder K] [IsStrictOrderedRing K] in
/-- **C197 (any network).** Two changes of the inflows: by how much the influence of the first where the second is made differs
from that of the second where the first is made. -/
theorem C197_defect (net : Net K) (dt : K) (m m' m'' : Mats K) (hm : CleanMats net m) (hm' : CleanMats net m')
    (hm'' : CleanMats net m'') (hw : Wired net) {Hp Q0 q q' Hbc x x' x'' : ℕ → K}
    (hx : Solves net.M (systemMatrix net (assembleMats net dt m)) (assembleB net dt Hp Q0 Hbc) x)
    (hx' : Solves net.M (systemMatrix net (assembleMats net dt m')) (assembleB net dt Hp (fun i => Q0 i + q i) Hbc) x')
    (hx'' : Solves net.M (systemMatrix net (assembleMats net dt m'')) (assembleB net dt Hp (fun i => Q0 i + q' i) Hbc) x'') :
    (∑ i ∈ (Finset.range net.M).filter (fun i => net.bc i = false), q i * (x'' i - x i))
      - ∑ i ∈ (Finset.range net.M).filter (fun i => net.bc i = false), q' i * (x' i - x i)
      = net.links.skew (fun i => x' i - x i) (fun i => x'' i - x i)
        + net.orifices.skew (fun i => x' i - x i) (fun i => x'' i - x i)
        + net.weirs.skew (fun i => x' i - x i) (fun i => x'' i - x i)
        + net.pumps.skew (fun i => x' i - x i) (fun i => x'' i - x i) := by
  rw [solves_iff net dt _ ‹_› hw] at hx hx' hx''
  rw [← links_skew hw.lu hw.ld, ← ctrls_skew hw.ou hw.od, ← ctrls_skew hw.wu hw.wd, ← ctrls_skew hw.pu hw.pd,
    ← Finset.sum_add_distrib, ← Finset.sum_add_distrib, ← Finset.sum_add_distrib, ← Finset.sum_sub_distrib,
    Finset.sum_filter]
  refine Finset.sum_congr rfl fun i hi => ?_
  have hi := Finset.mem_range.mp hi
  by_cases hb : net.bc i = true
  · rw [if_neg (by simp [hb]), (hx i hi).1 hb, (hx' i hi).1 hb, (hx'' i hi).1 hb]
    ring
  · have hb : net.bc i = false := by simpa using hb
    rw [if_pos hb]
    have b := (hx i hi).2 hb
    have b' := (hx' i hi).2 hb
    have b'' := (hx'' i hi).2 hb
    unfold Network.Balanced at b b' b''
    linear_combination (x' i - x i) * (b'' - b) - (x'' i - x i) * (b' - b)

/-- No element carries more influence the one way than the other. -/
structure Mutual (net : Net K) : Prop where
  links : ∀ k, k < net.links.n → net.links.alpha_d k + net.links.beta_u k = 0
  orifices : ∀ k, k < net.orifices.n → net.orifices.alpha k + net.orifices.beta k = 0
  weirs : ∀ k, k < net.weirs.n → net.weirs.alpha k + net.weirs.beta k = 0
  pumps : ∀ k, k < net.pumps.n → net.pumps.alpha k + net.pumps.beta k = 0

omit [LinearOrder K] [IsStrictOrderedRing K] in
/-- **C197 (mutual elements).** -/
theorem C197_mutual (net : Net K) (dt : K) (m m' m'' : Mats K) (hm : CleanMats net m) (hm' : CleanMats net m')
    (hm'' : CleanMats net m'') (hw : Wired net) (mu : Mutual net) {Hp Q0 q q' Hbc x x' x'' : ℕ → K}
    (hx : Solves net.M (systemMatrix net (assembleMats net dt m)) (assembleB net dt Hp Q0 Hbc) x)
    (hx' : Solves net.M (systemMatrix net (assembleMats net dt m')) (assembleB net dt Hp (fun i => Q0 i + q i) Hbc) x')
    (hx'' : Solves net.M (systemMatrix net (assembleMats net dt m'')) (assembleB net dt Hp (fun i => Q0 i + q' i) Hbc) x'') :
    ∑ i ∈ (Finset.range net.M).filter (fun i => net.bc i = false), q i * (x'' i - x i)
      = ∑ i ∈ (Finset.range net.M).filter (fun i => net.bc i = false), q' i * (x' i - x i) := by
  have h := C197_defect net dt m m' m'' hm hm' hm'' hw hx hx' hx''
  have c : ∀ C : Ctrls K, (∀ k, k < C.n → C.alpha k + C.beta k = 0) → ∀ d d', C.skew d d' = 0 := by
    intro C hC d d'
    exact Finset.sum_eq_zero fun k hk => by rw [hC k (Finset.mem_range.mp hk), zero_mul]
  have l : ∀ d d', net.links.skew d d' = 0 := fun d d' =>
    Finset.sum_eq_zero fun k hk => by rw [mu.links k (Finset.mem_range.mp hk), zero_mul]
  rw [l, c _ mu.orifices, c _ mu.weirs, c _ mu.pumps] at h
  linear_combination h

/-- **C197 (two superjunctions).** Superlinks from superjunction 0 to superjunction 1 and nothing else: which influence is the
larger is decided by the sum of what the superlinks pass on. -/
theorem C197_pair (net : Net K) (dt : K) (hdt : 0 < dt) (m m' m'' : Mats K) (hm : CleanMats net m) (hm' : CleanMats net m')
    (hm'' : CleanMats net m'') (hw : Wired net) (hs : Signed net) (h2 : net.M = 2) (hb : ∀ i, i < 2 → net.bc i = false)
    (hu : ∀ k, k < net.links.n → net.links.Ju k = 0) (hd : ∀ k, k < net.links.n → net.links.Jd k = 1)
    (ho : net.orifices.n = 0) (hwn : net.weirs.n = 0) (hp : net.pumps.n = 0) {Hp Q0 Hbc x x' x'' : ℕ → K} {q : K} (hq : 0 < q)
    (hx : Solves net.M (systemMatrix net (assembleMats net dt m)) (assembleB net dt Hp Q0 Hbc) x)
    (hx' : Solves net.M (systemMatrix net (assembleMats net dt m'))
      (assembleB net dt Hp (fun i => Q0 i + if i = 0 then q else 0) Hbc) x')
    (hx'' : Solves net.M (systemMatrix net (assembleMats net dt m''))
      (assembleB net dt Hp (fun i => Q0 i + if i = 1 then q else 0) Hbc) x'') :
    (x'' 0 - x 0 ≤ x' 1 - x 1 ↔ 0 ≤ ∑ k ∈ Finset.range net.links.n, (net.links.alpha_d k + net.links.beta_u k)) ∧
    (x'' 0 - x 0 = x' 1 - x 1 ↔ ∑ k ∈ Finset.range net.links.n, (net.links.alpha_d k + net.links.beta_u k) = 0) := by
  rw [solves_iff net dt _ ‹_› hw] at hx hx' hx''
  set a := ∑ k ∈ Finset.range net.links.n, net.links.alpha_u k with ha
  set b := ∑ k ∈ Finset.range net.links.n, net.links.beta_u k with hbu
  set c := ∑ k ∈ Finset.range net.links.n, net.links.alpha_d k with hcd
  set d := ∑ k ∈ Finset.range net.links.n, net.links.beta_d k with hdd
  have z : ∀ (C : Ctrls K), C.n = 0 → ∀ H i, C.inflow H i = 0 := by intro C h H i; simp [Ctrls.inflow, h]
  have i0 : ∀ y y' : ℕ → K, net.links.inflow y' 0 - net.links.inflow y 0 = - (a * (y' 0 - y 0) + b * (y' 1 - y 1)) := by
    intro y y'
    rw [Links.inflow, Links.inflow, ← Finset.sum_sub_distrib, ha, hbu, Finset.sum_mul, Finset.sum_mul,
      ← Finset.sum_add_distrib, ← Finset.sum_neg_distrib]
    refine Finset.sum_congr rfl fun k hk => ?_
    have hk := Finset.mem_range.mp hk
    simp only [hu k hk, hd k hk, one_ne_zero, if_true, if_false, Links.Qu]
    ring
  have i1 : ∀ y y' : ℕ → K, net.links.inflow y' 1 - net.links.inflow y 1 = c * (y' 0 - y 0) + d * (y' 1 - y 1) := by
    intro y y'
    rw [Links.inflow, Links.inflow, ← Finset.sum_sub_distrib, hcd, hdd, Finset.sum_mul, Finset.sum_mul,
      ← Finset.sum_add_distrib]
    refine Finset.sum_congr rfl fun k hk => ?_
    have hk := Finset.mem_range.mp hk
    simp only [hu k hk, hd k hk, zero_ne_one, if_true, if_false, Links.Qd]
    ring
  have n0 : 0 < net.M := by omega
  have n1 : 1 < net.M := by omega
  have B0 := (hx 0 n0).2 (hb 0 (by omega))
  have B0' := (hx' 0 n0).2 (hb 0 (by omega))
  have B0'' := (hx'' 0 n0).2 (hb 0 (by omega))
  have B1 := (hx 1 n1).2 (hb 1 (by omega))
  have B1' := (hx' 1 n1).2 (hb 1 (by omega))
  have B1'' := (hx'' 1 n1).2 (hb 1 (by omega))
  unfold Network.Balanced at B0 B0' B0'' B1 B1' B1''
  simp only [z _ ho, z _ hwn, z _ hp, one_ne_zero, zero_ne_one, if_true, if_false, add_zero] at B0 B0' B0'' B1 B1' B1''
  have S : ∀ i, i < 2 → 0 < net.As i / dt + net.links.xiSum i := by
    intro i hi
    have := div_pos (hs.As i (by omega) (hb i hi)) hdt
    have : 0 ≤ net.links.xiSum i := Finset.sum_nonneg fun k hk => by
      have := hs.xu k (Finset.mem_range.mp hk); have := hs.xd k (Finset.mem_range.mp hk)
      split_ifs <;> simp <;> linarith
    linarith
  have s0 := S 0 (by omega)
  have s1 := S 1 (by omega)
  have hc0 : 0 ≤ c := Finset.sum_nonneg fun k hk => hs.ad k (Finset.mem_range.mp hk)
  have hca : c ≤ a := Finset.sum_le_sum fun k hk => hs.au k (Finset.mem_range.mp hk)
  have hb0 : b ≤ 0 := Finset.sum_nonpos fun k hk => hs.bu k (Finset.mem_range.mp hk)
  have hdb : d ≤ b := Finset.sum_le_sum fun k hk => hs.bd k (Finset.mem_range.mp hk)
  rw [Finset.sum_add_distrib, ← hbu, ← hcd]
  generalize net.As 0 / dt + net.links.xiSum 0 = S0 at *
  generalize net.As 1 / dt + net.links.xiSum 1 = S1 at *
  have e0' := i0 x x'
  have e0'' := i0 x x''
  have e1' := i1 x x'
  have e1'' := i1 x x''
  have det : 0 < (S0 + a) * (S1 - d) + b * c := by
    have h1 : c * (-b) ≤ a * (-d) := mul_le_mul hca (by linarith) (by linarith) (hc0.trans hca)
    have h2 : 0 < S0 * S1 := mul_pos s0 s1
    have h3 : 0 ≤ S0 * (-d) := mul_nonneg s0.le (by linarith)
    have h4 : 0 ≤ a * S1 := mul_nonneg (hc0.trans hca) s1.le
    linarith
  have f1 : ((S0 + a) * (S1 - d) + b * c) * (x' 1 - x 1) = c * q := by
    linear_combination c * (B0' - B0 + e0') + (S0 + a) * (B1' - B1 + e1')
  have f0 : ((S0 + a) * (S1 - d) + b * c) * (x'' 0 - x 0) = -b * q := by
    linear_combination (S1 - d) * (B0'' - B0 + e0'') - b * (B1'' - B1 + e1'')
  have key : ((S0 + a) * (S1 - d) + b * c) * ((x' 1 - x 1) - (x'' 0 - x 0)) = (c + b) * q := by
    linear_combination f1 - f0
  constructor
  · rw [← sub_nonneg, ← mul_nonneg_iff_of_pos_left det, key, mul_nonneg_iff_of_pos_right hq]
  · constructor
    · intro h
      rw [h, sub_self, mul_zero] at key
      exact (mul_eq_zero.mp key.symm).resolve_right hq.ne'
    · intro h
      rw [h, zero_mul] at key
      exact (sub_eq_zero.mp ((mul_eq_zero.mp key).resolve_left det.ne')).symm

end Pipedream.Network

namespace Pipedream.Step

open Pipedream.Sweep Pipedream.Link Pipedream.Superlink Pipedream.Control Pipedream.Network

variable {m : Model} {geo : Geo} {inp : Inputs} {wk : Work} {prev cur : Hyd} {co : Coef ℝ} {x x' x'' : ℕ → ℝ}

/-! ### Lemmas -/

/-- Advection coefficients of a superlink in which no link flows backwards. -/
theorem forward_c (c : m.Consistent) (st : StartTables m) (ps : PhysicalStep m geo inp)
    (hc : StepCoefs m.g m.N (m.linkIn geo inp prev cur) (m.nodeIn geo inp prev) m.nix co) {k : ℕ} (hk : k < m.ix.NK)
    (hQ : ∀ j, j < m.ix.nk k → 0 ≤ cur.Q (m.ix.i_1k k + j)) :
    ∀ j, j < m.ix.nk k → (co.slice (m.ix.i_1k k) (m.ix.I_1k k)).c j = 0 := by
  have hN := c.inN k hk
  intro j hj
  have v : 0 ≤ velocityDown m geo cur k j := by
    unfold velocityDown
    have a1 := ps.A_pos (m.ix.i_1k k + j) (by omega)
    have d1 := ps.dx_pos (m.ix.i_1k k + j) (by omega)
    have q1 := hQ j hj
    by_cases h0 : j + 1 = m.ix.nk k
    · rw [if_pos h0]; exact div_nonneg q1 a1.le
    · have q2 := hQ (j + 1) (by omega)
      have a2 := ps.A_pos (m.ix.i_1k k + j + 1) (by omega)
      have d2 := ps.dx_pos (m.ix.i_1k k + j + 1) (by omega)
      rw [← add_assoc] at q2
      rw [if_neg h0]
      positivity
  obtain ⟨-, -, h, -⟩ := hc.1 (m.ix.i_1k k + j) (by omega)
  simp only [Coef.slice]
  rw [h]
  simp only [LinkIn.c, Model.linkIn, cIk]
  rw [velocityDown_eq c ps st hk hj, max_eq_right (by linarith)]
  simp

/-- The same for a superlink in which no link flows forwards. -/
theorem backward_a (c : m.Consistent) (st : StartTables m) (ps : PhysicalStep m geo inp)
    (hc : StepCoefs m.g m.N (m.linkIn geo inp prev cur) (m.nodeIn geo inp prev) m.nix co) {k : ℕ} (hk : k < m.ix.NK)
    (hQ : ∀ j, j < m.ix.nk k → cur.Q (m.ix.i_1k k + j) ≤ 0) :
    ∀ j, j < m.ix.nk k → (co.slice (m.ix.i_1k k) (m.ix.I_1k k)).a j = 0 := by
  have hN := c.inN k hk
  intro j hj
  have v : velocityUp m geo cur k j ≤ 0 := by
    unfold velocityUp
    have a1 := ps.A_pos (m.ix.i_1k k + j) (by omega)
    have d1 := ps.dx_pos (m.ix.i_1k k + j) (by omega)
    have q1 := hQ j hj
    by_cases h0 : j = 0
    · rw [if_pos h0]; exact div_nonpos_of_nonpos_of_nonneg q1 a1.le
    · have q2 := hQ (j - 1) (by omega)
      rw [← Nat.add_sub_assoc (by omega)] at q2
      have a2 := ps.A_pos (m.ix.i_1k k + j - 1) (by omega)
      have d2 := ps.dx_pos (m.ix.i_1k k + j - 1) (by omega)
      rw [if_neg h0]
      refine div_nonpos_of_nonpos_of_nonneg (add_nonpos ?_ ?_) (by linarith)
      · exact mul_nonpos_of_nonneg_of_nonpos d1.le (div_nonpos_of_nonpos_of_nonneg q2 a2.le)
      · exact mul_nonpos_of_nonneg_of_nonpos d2.le (div_nonpos_of_nonpos_of_nonneg q1 a1.le)
  obtain ⟨h, -⟩ := hc.1 (m.ix.i_1k k + j) (by omega)
  simp only [Coef.slice]
  rw [h]
  simp only [LinkIn.a, Model.linkIn, aIk]
  rw [velocityUp_eq c ps st hk hj, max_eq_right v]
  simp

/-- The relation of `C197_link` in a step, for a superlink with both ends below water. -/
theorem step_cross (c : m.Consistent) (ps : PhysicalStep m geo inp)
    (hc : StepCoefs m.g m.N (m.linkIn geo inp prev cur) (m.nodeIn geo inp prev) m.nix co) {k : ℕ} (hk : k < m.ix.NK)
    (hu : m.z_uk k ≤ cur.H (m.Ju k)) (hd : m.z_dk k ≤ cur.H (m.Jd k)) :
    let s := co.slice (m.ix.i_1k k) (m.ix.I_1k k)
    (∏ i ∈ Finset.range (m.ix.nk k), (m.g * s.A i - s.E (i + 1) * s.c i))
        * alphaDk (m.endRec wk co k) (m.headCoef geo cur k)
      = - ((∏ i ∈ Finset.range (m.ix.nk k), (m.g * s.A i - s.E i * s.a i))
        * betaUk (m.endRec wk co k) (m.headCoef geo cur k)) := by
  intro s
  have h := C197_link (c.layout.pos k hk) (physical c ps hc hk) (sweptFwd_rel m.g co m.ix wk.f c.layout hk)
    (sweptBwd_rel m.g co m.ix wk.b c.layout hk) m.end_method (m.headCoef geo cur k)
  have l1 : (m.headCoef geo cur k).lam_u = 1 := by simp [Model.headCoef, headCoefZ, theta, hu]
  have l2 : (m.headCoef geo cur k).lam_d = 1 := by simp [Model.headCoef, headCoefZ, theta, hd]
  rw [l1, l2, one_mul, one_mul] at h
  exact h

/-! ### C197 -/

/-- **C197 (running downstream).** A superlink with both ends below water and no link flowing backwards passes on at least as
much influence downstream as upstream. -/
theorem C197_downstream (c : m.Consistent) (st : StartTables m) (ps : PhysicalStep m geo inp)
    (hc : StepCoefs m.g m.N (m.linkIn geo inp prev cur) (m.nodeIn geo inp prev) m.nix co) {k : ℕ} (hk : k < m.ix.NK)
    (hu : m.z_uk k ≤ cur.H (m.Ju k)) (hd : m.z_dk k ≤ cur.H (m.Jd k))
    (hQ : ∀ j, j < m.ix.nk k → 0 ≤ cur.Q (m.ix.i_1k k + j)) :
    0 ≤ alphaDk (m.endRec wk co k) (m.headCoef geo cur k) + betaUk (m.endRec wk co k) (m.headCoef geo cur k) := by
  have h := step_cross (wk := wk) c ps hc hk hu hd
  have ph := physical c ps hc hk
  have c0 := forward_c c st ps hc hk hQ
  have b := (flowSigns (step_endSigns (wk := wk) c ps hc hk) (step_headSigns (cur := cur) ps hk)).beta_uk
  have r0 : 0 < ∏ i ∈ Finset.range (m.ix.nk k), (m.g * (co.slice (m.ix.i_1k k) (m.ix.I_1k k)).A i
      - (co.slice (m.ix.i_1k k) (m.ix.I_1k k)).E (i + 1) * (co.slice (m.ix.i_1k k) (m.ix.I_1k k)).c i) :=
    Finset.prod_pos fun i hi => by
      have hi := Finset.mem_range.mp hi
      rw [c0 i hi, mul_zero, sub_zero]
      exact mul_pos ph.g_pos (ph.A_pos i hi)
  have le : ∏ i ∈ Finset.range (m.ix.nk k), (m.g * (co.slice (m.ix.i_1k k) (m.ix.I_1k k)).A i
      - (co.slice (m.ix.i_1k k) (m.ix.I_1k k)).E (i + 1) * (co.slice (m.ix.i_1k k) (m.ix.I_1k k)).c i)
      ≤ ∏ i ∈ Finset.range (m.ix.nk k), (m.g * (co.slice (m.ix.i_1k k) (m.ix.I_1k k)).A i
      - (co.slice (m.ix.i_1k k) (m.ix.I_1k k)).E i * (co.slice (m.ix.i_1k k) (m.ix.I_1k k)).a i) :=
    Finset.prod_le_prod (fun i hi => by
      have hi := Finset.mem_range.mp hi
      rw [c0 i hi, mul_zero, sub_zero]
      exact (mul_pos ph.g_pos (ph.A_pos i hi)).le) fun i hi => by
      have hi := Finset.mem_range.mp hi
      rw [c0 i hi, mul_zero]
      have := mul_nonneg (ph.E_nonneg i hi.le) (neg_nonneg.mpr (ph.a_nonpos i hi))
      linarith
  simp only at h
  have m1 := mul_le_mul_of_nonneg_right le (neg_nonneg.mpr b)
  refine nonneg_of_mul_nonneg_right ?_ r0
  rw [mul_add, h]
  linarith

/-- **C197 (still water, one superlink).** Without flow the superlink passes on as much influence one way as the other. -/
theorem C197_still_link (c : m.Consistent) (st : StartTables m) (ps : PhysicalStep m geo inp)
    (hc : StepCoefs m.g m.N (m.linkIn geo inp prev cur) (m.nodeIn geo inp prev) m.nix co) {k : ℕ} (hk : k < m.ix.NK)
    (hu : m.z_uk k ≤ cur.H (m.Ju k)) (hd : m.z_dk k ≤ cur.H (m.Jd k))
    (hQ : ∀ j, j < m.ix.nk k → cur.Q (m.ix.i_1k k + j) = 0) :
    alphaDk (m.endRec wk co k) (m.headCoef geo cur k) + betaUk (m.endRec wk co k) (m.headCoef geo cur k) = 0 := by
  have h := step_cross (wk := wk) c ps hc hk hu hd
  have ph := physical c ps hc hk
  have c0 := forward_c c st ps hc hk fun j hj => (hQ j hj).ge
  have a0 := backward_a c st ps hc hk fun j hj => (hQ j hj).le
  have e1 := Finset.prod_congr rfl (fun i hi => by rw [c0 i (Finset.mem_range.mp hi), mul_zero, sub_zero] :
    ∀ i ∈ Finset.range (m.ix.nk k), m.g * (co.slice (m.ix.i_1k k) (m.ix.I_1k k)).A i
      - (co.slice (m.ix.i_1k k) (m.ix.I_1k k)).E (i + 1) * (co.slice (m.ix.i_1k k) (m.ix.I_1k k)).c i
      = m.g * (co.slice (m.ix.i_1k k) (m.ix.I_1k k)).A i)
  have e2 := Finset.prod_congr rfl (fun i hi => by rw [a0 i (Finset.mem_range.mp hi), mul_zero, sub_zero] :
    ∀ i ∈ Finset.range (m.ix.nk k), m.g * (co.slice (m.ix.i_1k k) (m.ix.I_1k k)).A i
      - (co.slice (m.ix.i_1k k) (m.ix.I_1k k)).E i * (co.slice (m.ix.i_1k k) (m.ix.I_1k k)).a i
      = m.g * (co.slice (m.ix.i_1k k) (m.ix.I_1k k)).A i)
  simp only at h
  rw [e1, e2] at h
  have r0 : 0 < ∏ i ∈ Finset.range (m.ix.nk k), m.g * (co.slice (m.ix.i_1k k) (m.ix.I_1k k)).A i :=
    Finset.prod_pos fun i hi => mul_pos ph.g_pos (ph.A_pos i (Finset.mem_range.mp hi))
  have : (∏ i ∈ Finset.range (m.ix.nk k), m.g * (co.slice (m.ix.i_1k k) (m.ix.I_1k k)).A i)
      * (alphaDk (m.endRec wk co k) (m.headCoef geo cur k) + betaUk (m.endRec wk co k) (m.headCoef geo cur k)) = 0 := by
    rw [mul_add, h]; ring
  exact (mul_eq_zero.mp this).resolve_left r0.ne'

/-- Still water below which all pipe ends lie; orifices and weirs carry nothing or are drowned on both sides. Pumps may run. -/
structure Standing (m : Model) (inp : Inputs) (s : Hyd) : Prop where
  Q : ∀ k, k < m.ix.NK → ∀ j, j < m.ix.nk k → s.Q (m.ix.i_1k k + j) = 0
  up : ∀ k, k < m.ix.NK → m.z_uk k ≤ s.H (m.Ju k)
  down : ∀ k, k < m.ix.NK → m.z_dk k ≤ s.H (m.Jd k)
  orifices : ∀ o, o < m.n_o → s.Qo o = 0 ∨ ∀ H ∈ [s.H (m.Juo o), s.H (m.Jdo o)],
    (m.orifice o).z_o + (m.orifice o).z_inv + (m.orifice o).tau * (m.orifice o).y_max * inp.u_o o < H ∧
    (m.orifice o).z_o + (m.orifice o).z_inv + (m.orifice o).tau * (m.orifice o).y_max * inp.u_o o / 2 < H
  weirs : ∀ w, w < m.n_w → s.Qw w = 0 ∨ ∀ H ∈ [s.H (m.Juw w), s.H (m.Jdw w)],
    (m.weir w).z_w + (m.weir w).z_inv + (1 - inp.u_w w) * (m.weir w).y_max < H

theorem omega_mix (a b : ℝ) (P : ℝ → Prop) (h : ∀ H ∈ [a, b], P H) :
    P (omega a b * a + (1 - omega a b) * b) ∧ P ((1 - omega a b) * a + omega a b * b) := by
  have ha := h a (by simp)
  have hb := h b (by simp)
  unfold omega
  split_ifs <;> simp [ha, hb]

theorem still_mutual (c : m.Consistent) (st : StartTables m) (ps : PhysicalStep m geo inp) (sl : Standing m inp cur)
    (hc : StepCoefs m.g m.N (m.linkIn geo inp prev cur) (m.nodeIn geo inp prev) m.nix co) :
    Mutual (m.net geo inp wk cur co) := by
  refine ⟨fun k hk => C197_still_link c st ps hc hk (sl.up k hk) (sl.down k hk) (sl.Q k hk), fun o ho => ?_,
    fun o ho => ?_, fun o ho => ?_⟩
  · show (m.oLin geo inp wk cur o).alpha + (m.oLin geo inp wk cur o).beta = 0
    rcases sl.orifices o ho with h | h
    · have g0 : gammaO (cur.Qo o) (geo.Ao o) (m.Co o) m.g = 0 := by simp [gammaO, safeDivide_eq, h]
      simp only [Model.oLin, orificeLin, g0, orificeCoef]
      split_ifs <;> simp_all
    · have h1 := (omega_mix _ _ _ h).1
      have h2 := (omega_mix _ _ _ h).2
      simp only [Model.oLin, orificeLin, orificeCoef]
      split_ifs <;> simp_all
  · show (m.wLin inp wk cur o).alpha + (m.wLin inp wk cur o).beta = 0
    rcases sl.weirs o ho with h | h
    · have g0 : ∀ X, gammaW (cur.Qw o) X (m.weir o) = 0 := by simp [gammaW, safeDivide_eq, h]
      simp only [Model.wLin, weirLin, g0]
      split_ifs <;> simp_all
    · have h1 := (omega_mix _ _ _ h).1
      have h2 := (omega_mix _ _ _ h).2
      simp only [Model.wLin, weirLin]
      split_ifs <;> simp_all
  · show (m.pLin inp wk cur o).alpha + (m.pLin inp wk cur o).beta = 0
    simp only [Model.pLin, pumpLin]
    split_ifs <;> simp_all

/-- **C197 (still water, any inflows).** -/
theorem C197_still_all (c : m.Consistent) (st : StartTables m) (ps : PhysicalStep m geo inp) (cw : CleanWork m wk.mats)
    (sl : Standing m inp cur) (q q' : ℕ → ℝ) (p : Pass m geo inp wk prev cur co x)
    (p' : Pass m geo { inp with Q_in := fun i => inp.Q_in i + q i } wk prev cur co x')
    (p'' : Pass m geo { inp with Q_in := fun i => inp.Q_in i + q' i } wk prev cur co x'') :
    ∑ i ∈ free m, q i * (x'' i - x i) = ∑ i ∈ free m, q' i * (x' i - x i) :=
  C197_mutual (m.net geo inp wk cur co) inp.dt wk.mats wk.mats wk.mats cw.mats cw.mats cw.mats (wired c)
    (still_mutual c st ps sl p.coefs) p.solve p'.solve p''.solve

/-- **C197.** In still water, water added at superjunction `i` raises superjunction `j` in the next step by as much as the same
water added at `j` raises `i` (heads within the limits of their superjunctions), whatever the network between them. -/
theorem C197_still (c : m.Consistent) (st : StartTables m) (ps : PhysicalStep m geo inp) (cw : CleanWork m wk.mats)
    (sl : Standing m inp cur) {i j : ℕ} (hi : i ∈ free m) (hj : j ∈ free m) {q : ℝ} (hq : q ≠ 0)
    (p : Pass m geo inp wk prev cur co x)
    (p' : Pass m geo { inp with Q_in := fun l => inp.Q_in l + if l = i then q else 0 } wk prev cur co x')
    (p'' : Pass m geo { inp with Q_in := fun l => inp.Q_in l + if l = j then q else 0 } wk prev cur co x'')
    (lim : ∀ l, l = i ∨ l = j → ∀ y ∈ [x, x', x''], m.z_inv l ≤ y l ∧ y l ≤ m.z_inv l + m.max_depth l) :
    (m.advance geo { inp with Q_in := fun l => inp.Q_in l + if l = i then q else 0 } wk cur co x').H j
        - (m.advance geo inp wk cur co x).H j
      = (m.advance geo { inp with Q_in := fun l => inp.Q_in l + if l = j then q else 0 } wk cur co x'').H i
        - (m.advance geo inp wk cur co x).H i := by
  have h := C197_still_all c st ps cw sl _ _ p p' p''
  simp only [ite_mul, zero_mul, Finset.sum_ite_eq', hi, hj, if_true] at h
  have cl : ∀ l, l = i ∨ l = j → ∀ y ∈ [x, x', x''], clipHead m.z_inv m.max_depth y l = y l := by
    intro l hl y hy
    obtain ⟨h1, h2⟩ := lim l hl y hy
    rw [clipHead, max_eq_left h1, min_eq_left h2]
  simp only [Model.advance]
  rw [cl j (.inr rfl) x' (by simp), cl j (.inr rfl) x (by simp), cl i (.inl rfl) x'' (by simp), cl i (.inl rfl) x (by simp)]
  exact (mul_left_cancel₀ hq h).symm

/-- **C197 (running water).** Two superjunctions joined by superlinks in all of which the water runs from the first to the second
(or stands): water added at the first raises the second at least as much as the same water added at the second raises the
first. -/
theorem C197_running (c : m.Consistent) (st : StartTables m) (ps : PhysicalStep m geo inp) (cw : CleanWork m wk.mats)
    (h2 : m.M = 2) (hb : ∀ i, i < 2 → m.bc i = false) (hJu : ∀ k, k < m.ix.NK → m.Ju k = 0)
    (hJd : ∀ k, k < m.ix.NK → m.Jd k = 1) (ho : m.n_o = 0) (hw : m.n_w = 0) (hp : m.n_p = 0)
    (hQ : ∀ k, k < m.ix.NK → ∀ j, j < m.ix.nk k → 0 ≤ cur.Q (m.ix.i_1k k + j))
    (hu : ∀ k, k < m.ix.NK → m.z_uk k ≤ cur.H (m.Ju k)) (hd : ∀ k, k < m.ix.NK → m.z_dk k ≤ cur.H (m.Jd k))
    {q : ℝ} (hq : 0 < q) (p : Pass m geo inp wk prev cur co x)
    (p' : Pass m geo { inp with Q_in := fun l => inp.Q_in l + if l = 0 then q else 0 } wk prev cur co x')
    (p'' : Pass m geo { inp with Q_in := fun l => inp.Q_in l + if l = 1 then q else 0 } wk prev cur co x'') :
    x'' 0 - x 0 ≤ x' 1 - x 1 :=
  (C197_pair (m.net geo inp wk cur co) inp.dt ps.dt_pos wk.mats wk.mats wk.mats cw.mats cw.mats cw.mats (wired c)
    (signed c ps p.coefs) h2 hb hJu hJd ho hw hp hq p.solve p'.solve p''.solve).1.2
    (Finset.sum_nonneg fun k hk => C197_downstream c st ps p.coefs (Finset.mem_range.mp hk) (hu k (Finset.mem_range.mp hk))
      (hd k (Finset.mem_range.mp hk)) (hQ k (Finset.mem_range.mp hk)))

/-! ### A concrete case: the pond of `exModel`, 0.1 added at either superjunction for 60 -/

theorem exStanding : Standing (exModel false) exInp exStill := by
  refine ⟨fun k _ j _ => rfl, fun k _ => ?_, fun k _ => ?_, fun o _ => .inl rfl, fun w _ => .inl rfl⟩ <;>
    norm_num [exModel, exStill]

theorem exStill_solved {co : Coef ℝ} {x : ℕ → ℝ} (p : Pass (exModel false) exGeo exInp exWork exStill exStill co x) :
    ∀ j, j < 2 → x j = 5 := by
  intro j hj
  have st := C14_still_water_partial (exConsistent false) (exPhysical false) (exClean false) (exBedOk false)
    (exInputsOk false) (exStillOk false) (exStillOk false) p
  have h := st.H j hj
  simp only [Model.advance, clipHead, exModel] at h
  rcases le_total (x j) 0 with h1 | h1
  · rw [max_eq_right h1, min_eq_left (by norm_num)] at h; norm_num at h
  · rw [max_eq_left h1] at h
    rcases le_total (x j) (0 + 10) with h3 | h3
    · rwa [min_eq_left h3] at h
    · rw [min_eq_right h3] at h; norm_num at h

/-- Water added to the pond raises no head by more than 2. -/
theorem exRise {co : Coef ℝ} {x x' : ℕ → ℝ} {i : ℕ} (p : Pass (exModel false) exGeo exInp exWork exStill exStill co x)
    (p' : Pass (exModel false) exGeo { exInp with Q_in := fun l => exInp.Q_in l + if l = i then 0.1 else 0 } exWork exStill
      exStill co x') : ∀ j, j < 2 → 3 ≤ x' j ∧ x' j ≤ 7 := by
  intro j hj
  have h := C138_heads ((exModel false).net exGeo exInp exWork exStill co) exInp.dt (exPhysical false).dt_pos exWork.mats
    exWork.mats (exClean false).mats (exClean false).mats (signed (exConsistent false) (exPhysical false) p.coefs)
    (wired (exConsistent false)) p.solve p'.solve
  have f : (Finset.range ((exModel false).net exGeo exInp exWork exStill co).M).filter
      (fun i => ((exModel false).net exGeo exInp exWork exStill co).bc i = false) = Finset.range 2 := by
    ext l; simp [Model.net, exModel]
  have ar : ∀ l, area ((exModel false).net exGeo exInp exWork exStill co) exInp.dt l = 3 := by
    intro l
    simp [area, Model.net, exModel, exGeo, Links.xiSum, xi]
  rw [f] at h
  simp only [ar, sub_self, abs_zero, mul_zero, zero_add, Finset.sum_range_succ, Finset.sum_range_zero,
    exStill_solved p 0 (by norm_num), exStill_solved p 1 (by norm_num)] at h
  have r : ∀ l : ℕ, |exInp.Q_in l - (exInp.Q_in l + if l = i then 0.1 else 0)| = if l = i then 0.1 else 0 := by
    intro l
    split_ifs
    · rw [show exInp.Q_in l - (exInp.Q_in l + 0.1) = -(0.1 : ℝ) by ring, abs_neg, abs_of_pos (by norm_num)]
    · simp
  rw [r, r] at h
  have h60 : exInp.dt = 60 := rfl
  rw [h60] at h
  have s : 60 * (if 0 = i then (0.1 : ℝ) else 0) + 60 * (if 1 = i then (0.1 : ℝ) else 0) ≤ 6 := by
    by_cases h0 : 0 = i
    · rw [if_pos h0, if_neg (by omega)]; norm_num
    · rw [if_neg h0]; split_ifs <;> norm_num
  have t0 := abs_nonneg (5 - x' 0)
  have t1 := abs_nonneg (5 - x' 1)
  have b : |5 - x' j| ≤ 2 := by
    rcases (by omega : j = 0 ∨ j = 1) with rfl | rfl <;> linarith
  obtain ⟨b1, b2⟩ := abs_le.mp b
  constructor <;> linarith

example : ∃ co x x' x'', Pass (exModel false) exGeo exInp exWork exStill exStill co x ∧
    ((exModel false).advance exGeo { exInp with Q_in := fun l => exInp.Q_in l + if l = 0 then 0.1 else 0 } exWork exStill
        co x').H 1 - ((exModel false).advance exGeo exInp exWork exStill co x).H 1
      = ((exModel false).advance exGeo { exInp with Q_in := fun l => exInp.Q_in l + if l = 1 then 0.1 else 0 } exWork
        exStill co x'').H 0 - ((exModel false).advance exGeo exInp exWork exStill co x).H 0 := by
  obtain ⟨co, x, p⟩ := C06_step_exists (prev := exStill) (cur := exStill) (exConsistent false) (exPhysical false)
    (exClean false) (fun _ _ => Or.inl rfl)
  have ex := fun i : ℕ => (C06_step (exConsistent false) (exPhysical false) (exClean false) p.coefs
    ((exModel false).rhs exGeo { exInp with Q_in := fun l => exInp.Q_in l + if l = i then 0.1 else 0 } exWork exStill
      exStill co)).1
  obtain ⟨x', h'⟩ := ex 0
  obtain ⟨x'', h''⟩ := ex 1
  refine ⟨co, x, x', x'', p, ?_⟩
  have p' : Pass (exModel false) exGeo { exInp with Q_in := fun l => exInp.Q_in l + if l = 0 then 0.1 else 0 } exWork exStill
    exStill co x' := ⟨p.coefs, h'⟩
  have p'' : Pass (exModel false) exGeo { exInp with Q_in := fun l => exInp.Q_in l + if l = 1 then 0.1 else 0 } exWork
    exStill exStill co x'' := ⟨p.coefs, h''⟩
  refine C197_still (exConsistent false) (exStartTables false) (exPhysical false) (exClean false) exStanding (i := 0)
    (j := 1) (by simp [free, exModel]) (by simp [free, exModel]) (by norm_num) p p' p'' fun l hl y hy => ?_
  have hl2 : l < 2 := by omega
  have b : 3 ≤ y l ∧ y l ≤ 7 := by
    simp only [List.mem_cons, List.not_mem_nil, or_false] at hy
    rcases hy with rfl | rfl | rfl
    · rw [exStill_solved p l hl2]; norm_num
    · exact exRise p p' l hl2
    · exact exRise p p'' l hl2
  simp only [exModel]
  constructor <;> linarith [b.1, b.2]

end Pipedream.Step
