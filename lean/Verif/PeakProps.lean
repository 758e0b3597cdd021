import Verif.ReciprocityProps

/-!
# C204: in still water the effect of an inflow is largest where it enters

Water added to a network which stands still raises no superjunction more than the one it is added to, and errors of
inflows and of prescribed heads cause errors of the heads nowhere larger than the largest of them.
-/

namespace Pipedream.Network

variable {K : Type*} [Field K] [LinearOrder K] [IsStrictOrderedRing K]

/-- Lifting all heads alike draws no water out of a superlink or control, at either end. -/
structure Lifts (net : Net K) : Prop where
  up : ∀ k, k < net.links.n → 0 ≤ net.links.alpha_u k + net.links.beta_u k
  down : ∀ k, k < net.links.n → net.links.alpha_d k + net.links.beta_d k ≤ 0
  orifices : ∀ k, k < net.orifices.n → net.orifices.alpha k + net.orifices.beta k = 0
  weirs : ∀ k, k < net.weirs.n → net.weirs.alpha k + net.weirs.beta k = 0
  pumps : ∀ k, k < net.pumps.n → net.pumps.alpha k + net.pumps.beta k = 0

theorem Mutual.lifts {net : Net K} (mu : Mutual net) (hs : Signed net) : Lifts net where
  up k hk := by linarith [mu.links k hk, hs.au k hk]
  down k hk := by linarith [mu.links k hk, hs.bd k hk]
  orifices := mu.orifices
  weirs := mu.weirs
  pumps := mu.pumps

/-- Where the change of head is largest, controls bring no more water than before. -/
theorem Ctrls.inflow_peak {C : Ctrls K} {M i : ℕ} (hu : ∀ k, k < C.n → C.Ju k < M) (hd : ∀ k, k < C.n → C.Jd k < M)
    (ha : ∀ k, k < C.n → 0 ≤ C.alpha k) (h0 : ∀ k, k < C.n → C.alpha k + C.beta k = 0)
    {x x' : ℕ → K} (top : ∀ j, j < M → x' j - x j ≤ x' i - x i) : C.inflow x' i ≤ C.inflow x i := by
  refine Finset.sum_le_sum fun k hk => ?_
  have hk := Finset.mem_range.mp hk
  have tu := top _ (hu k hk)
  have td := top _ (hd k hk)
  have e : C.beta k = - C.alpha k := by linarith [h0 k hk]
  have a0 := ha k hk
  have d : C.Q x' k - C.Q x k = C.alpha k * ((x' (C.Ju k) - x (C.Ju k)) - (x' (C.Jd k) - x (C.Jd k))) := by
    simp only [Ctrls.Q, e]; ring
  by_cases h1 : C.Jd k = i <;> by_cases h2 : C.Ju k = i
  · simp [h1, h2]
  · simp only [h1, h2, if_true, if_false, sub_zero]
    rw [h1] at d
    have := mul_nonneg a0 (sub_nonneg.mpr tu)
    linarith
  · simp only [h1, h2, if_true, if_false, zero_sub]
    rw [h2] at d
    have := mul_nonneg a0 (sub_nonneg.mpr td)
    linarith
  · simp [h1, h2]

/-- Where the change of head is largest, and not negative, superlinks bring no more water than before. -/
theorem Links.inflow_peak {net : Net K} {i : ℕ} (hw : Wired net) (hs : Signed net) (li : Lifts net)
    {x x' : ℕ → K} (top : ∀ j, j < net.M → x' j - x j ≤ x' i - x i) (pos : 0 ≤ x' i - x i) :
    net.links.inflow x' i ≤ net.links.inflow x i := by
  refine Finset.sum_le_sum fun k hk => ?_
  have hk := Finset.mem_range.mp hk
  have tu := top _ (hw.lu k hk)
  have td := top _ (hw.ld k hk)
  have dd : net.links.Qd x' k - net.links.Qd x k = net.links.alpha_d k * (x' (net.links.Ju k) - x (net.links.Ju k))
      + net.links.beta_d k * (x' (net.links.Jd k) - x (net.links.Jd k)) := by
    simp only [Links.Qd]; ring
  have du : net.links.Qu x' k - net.links.Qu x k = net.links.alpha_u k * (x' (net.links.Ju k) - x (net.links.Ju k))
      + net.links.beta_u k * (x' (net.links.Jd k) - x (net.links.Jd k)) := by
    simp only [Links.Qu]; ring
  have gd : net.links.Jd k = i → net.links.Qd x' k - net.links.Qd x k ≤ 0 := by
    intro h
    rw [dd, h]
    have h1 := mul_le_mul_of_nonneg_left tu (hs.ad k hk)
    have h2 := mul_nonpos_of_nonpos_of_nonneg (li.down k hk) pos
    linarith
  have gu : net.links.Ju k = i → 0 ≤ net.links.Qu x' k - net.links.Qu x k := by
    intro h
    rw [du, h]
    have h1 := mul_le_mul_of_nonpos_left td (hs.bu k hk)
    have h2 := mul_nonneg (li.up k hk) pos
    linarith
  by_cases h1 : net.links.Jd k = i <;> by_cases h2 : net.links.Ju k = i
  · simp only [h1, h2, if_true]; linarith [gd h1, gu h2]
  · simp only [h1, h2, if_true, if_false, sub_zero]; linarith [gd h1]
  · simp only [h1, h2, if_true, if_false, zero_sub]; linarith [gu h2]
  · simp [h1, h2]

/-- **C204 (any network that lifts).** Two solves with different previous heads, inflows and fixed heads. If at no fixed
superjunction the prescribed head is raised by more than `T ≥ 0`, and at every free one either the head turns out to rise by
no more, or the change of the previous head together with the additional inflow would by themselves raise it by no more,
then no head rises by more than `T`. -/
theorem C204_bound (net : Net K) (dt : K) (hdt : 0 < dt) (m m' : Mats K) (hm : CleanMats net m) (hm' : CleanMats net m')
    (hs : Signed net) (hw : Wired net) (li : Lifts net) {Hp Hp' Q0 Q0' Hbc Hbc' x x' : ℕ → K} {T : K} (hT : 0 ≤ T)
    (hx : Solves net.M (systemMatrix net (assembleMats net dt m)) (assembleB net dt Hp Q0 Hbc) x)
    (hx' : Solves net.M (systemMatrix net (assembleMats net dt m')) (assembleB net dt Hp' Q0' Hbc') x')
    (fixed : ∀ i, i < net.M → net.bc i = true → Hbc' i - Hbc i ≤ T)
    (loose : ∀ i, i < net.M → net.bc i = false → x' i - x i ≤ T ∨
      area net dt i * (Hp' i - Hp i) + dt * (Q0' i - Q0 i) ≤ area net dt i * T) {j : ℕ} (hj : j < net.M) :
    x' j - x j ≤ T := by
  rw [solves_iff net dt _ ‹_› hw] at hx hx'
  obtain ⟨i, hi, top⟩ := Finset.exists_max_image (Finset.range net.M) (fun i => x' i - x i) ⟨j, Finset.mem_range.mpr hj⟩
  have hi := Finset.mem_range.mp hi
  have top : ∀ l, l < net.M → x' l - x l ≤ x' i - x i := fun l hl => top l (Finset.mem_range.mpr hl)
  refine (top j hj).trans ?_
  by_contra hn
  have hn := not_le.mp hn
  cases hb : net.bc i with
  | true =>
    have := fixed i hi hb
    rw [(hx i hi).1 hb, (hx' i hi).1 hb] at hn
    linarith
  | false =>
    have hl := (loose i hi hb).resolve_left (not_le.mpr hn)
    have B := (hx i hi).2 hb
    have B' := (hx' i hi).2 hb
    unfold Network.Balanced at B B'
    have l0 := Links.inflow_peak hw hs li top (hT.trans hn.le)
    have o0 := Ctrls.inflow_peak hw.ou hw.od hs.oa li.orifices top
    have w0 := Ctrls.inflow_peak hw.wu hw.wd hs.wa li.weirs top
    have p0 := Ctrls.inflow_peak hw.pu hw.pd hs.pa li.pumps top
    have key : (net.As i / dt + net.links.xiSum i) * ((x' i - x i) - (Hp' i - Hp i)) ≤ Q0' i - Q0 i := by
      have : (net.As i / dt + net.links.xiSum i) * ((x' i - x i) - (Hp' i - Hp i))
        = (net.As i / dt + net.links.xiSum i) * (x' i - Hp' i) - (net.As i / dt + net.links.xiSum i) * (x i - Hp i) := by
        ring
      rw [this, B, B']; linarith
    have ea : area net dt i = dt * (net.As i / dt + net.links.xiSum i) := by unfold area; field_simp
    have hxi : 0 ≤ net.links.xiSum i := Finset.sum_nonneg fun k hk => by
      have := hs.xu k (Finset.mem_range.mp hk); have := hs.xd k (Finset.mem_range.mp hk)
      split_ifs <;> simp <;> linarith
    have a0 : 0 < area net dt i := by
      have := hs.As i hi hb; have := mul_nonneg hdt.le hxi; unfold area; linarith
    have key' := mul_le_mul_of_nonneg_left key hdt.le
    rw [← mul_assoc, ← ea] at key'
    have : area net dt i * (x' i - x i) ≤ area net dt i * T := by linarith
    exact absurd (le_of_mul_le_mul_left this a0) (not_le.mpr hn)

/-- **C204 (largest where it enters).** In a network that lifts, water added at free superjunction `i` raises no other head by
more than the head of `i`. -/
theorem C204_peak (net : Net K) (dt : K) (hdt : 0 < dt) (m m' : Mats K) (hm : CleanMats net m) (hm' : CleanMats net m')
    (hs : Signed net) (hw : Wired net) (li : Lifts net) {Hp Q0 Hbc x x' : ℕ → K} {i : ℕ} (hi : i < net.M) {q : K} (hq : 0 ≤ q)
    (hx : Solves net.M (systemMatrix net (assembleMats net dt m)) (assembleB net dt Hp Q0 Hbc) x)
    (hx' : Solves net.M (systemMatrix net (assembleMats net dt m'))
      (assembleB net dt Hp (fun l => Q0 l + if l = i then q else 0) Hbc) x') {j : ℕ} (hj : j < net.M) :
    x' j - x j ≤ x' i - x i := by
  have up : x i ≤ x' i := (C15_monotone net dt hdt m m' hm hm' hs hw (fun _ _ => le_rfl)
    (fun l _ => by split_ifs <;> simp [hq]) (fun _ _ => le_rfl) hx hx' (fun _ => 0) (fun _ => 0) i hi).1
  refine C204_bound net dt hdt m m' hm hm' hs hw li (sub_nonneg.mpr up) hx hx' (fun l _ _ => ?_) (fun l hl hb => ?_) hj
  · rw [sub_self]; exact sub_nonneg.mpr up
  · by_cases h : l = i
    · exact .inl (by rw [h])
    · refine .inr ?_
      have hxi : 0 ≤ net.links.xiSum l := Finset.sum_nonneg fun k hk => by
        have := hs.xu k (Finset.mem_range.mp hk); have := hs.xd k (Finset.mem_range.mp hk)
        split_ifs <;> simp <;> linarith
      have a0 : 0 ≤ area net dt l := by
        have := hs.As l hl hb; have := mul_nonneg hdt.le hxi; unfold area; linarith
      simp only [h, if_false, add_zero, sub_self, mul_zero]
      exact mul_nonneg a0 (sub_nonneg.mpr up)

/-- **C204 (an overfall).** Why still water is needed: between two superjunctions joined by one weir over which the water falls
freely, water added to the upper one raises the lower one more exactly if the weir passes in one step, per unit of head, more
than the area of the lower superjunction. -/
theorem C204_overfall_iff (net : Net K) (dt : K) (hdt : 0 < dt) (m m' : Mats K) (hm : CleanMats net m)
    (hm' : CleanMats net m') (hs : Signed net) (hw : Wired net) (h2 : net.M = 2) (hb : ∀ i, i < 2 → net.bc i = false)
    (hl : net.links.n = 0) (ho : net.orifices.n = 0) (hp : net.pumps.n = 0) (hn : net.weirs.n = 1)
    (hJu : net.weirs.Ju 0 = 0) (hJd : net.weirs.Jd 0 = 1) (overfall : net.weirs.beta 0 = 0)
    {Hp Q0 Hbc x x' : ℕ → K} {q : K} (hq : 0 < q)
    (hx : Solves net.M (systemMatrix net (assembleMats net dt m)) (assembleB net dt Hp Q0 Hbc) x)
    (hx' : Solves net.M (systemMatrix net (assembleMats net dt m'))
      (assembleB net dt Hp (fun l => Q0 l + if l = 0 then q else 0) Hbc) x') :
    x' 0 - x 0 < x' 1 - x 1 ↔ net.As 1 < dt * net.weirs.alpha 0 := by
  rw [solves_iff net dt _ ‹_› hw] at hx hx'
  have n0 : 0 < net.M := by omega
  have n1 : 1 < net.M := by omega
  have B0 := (hx 0 n0).2 (hb 0 (by omega))
  have B0' := (hx' 0 n0).2 (hb 0 (by omega))
  have B1 := (hx 1 n1).2 (hb 1 (by omega))
  have B1' := (hx' 1 n1).2 (hb 1 (by omega))
  unfold Network.Balanced at B0 B0' B1 B1'
  simp only [Links.inflow, Links.xiSum, Ctrls.inflow, Ctrls.Q, hl, ho, hp, hn, hJu, hJd, overfall, Finset.sum_range_zero,
    Finset.sum_range_one, one_ne_zero, zero_ne_one, if_true, if_false, add_zero, zero_mul, sub_zero, zero_sub] at B0 B0' B1 B1'
  have a0 := hs.As 0 n0 (hb 0 (by omega))
  have a1 := hs.As 1 n1 (hb 1 (by omega))
  have al := hs.wa 0 (by omega)
  set a := net.weirs.alpha 0
  have e0 : (net.As 0 / dt + a) * (x' 0 - x 0) = q := by linear_combination B0' - B0
  have e1 : net.As 1 / dt * (x' 1 - x 1) = a * (x' 0 - x 0) := by linear_combination B1' - B1
  have d0 : 0 < x' 0 - x 0 := by
    have : 0 < net.As 0 / dt + a := by have := div_pos a0 hdt; linarith
    exact (mul_pos_iff_of_pos_left this).mp (by rw [e0]; exact hq)
  have e2 : net.As 1 * (x' 1 - x 1) = dt * a * (x' 0 - x 0) := by
    field_simp at e1; linarith
  constructor
  · intro h
    have := mul_lt_mul_of_pos_left h a1
    rw [e2] at this
    exact lt_of_mul_lt_mul_right this d0.le
  · intro h
    have := mul_lt_mul_of_pos_right h d0
    rw [← e2] at this
    exact lt_of_mul_lt_mul_left this a1.le

/-- Two tanks of area 1 and an overfall that passes 2 per unit of head. -/
def fallNet : Net ℚ where
  M := 2
  bc := fun _ => false
  As := fun _ => 1
  links := ⟨0, fun _ => 0, fun _ => 1, 0, 0, 0, 0, 0, 0, 0, 0⟩
  orifices := ⟨0, fun _ => 0, fun _ => 1, 0, 0, 0⟩
  weirs := ⟨1, fun _ => 0, fun _ => 1, fun _ => 2, 0, 0⟩
  pumps := ⟨0, fun _ => 0, fun _ => 1, 0, 0, 0⟩

/-- A concrete case: 3 added upstream for one unit of time raises the upper tank by 1, the lower one by 2. -/
example : ∃ x x' : ℕ → ℚ, x' 0 - x 0 = 1 ∧ x' 0 - x 0 < x' 1 - x 1 ∧
    Solves fallNet.M (systemMatrix fallNet (assembleMats fallNet 1 ⟨fun _ _ => 0, fun _ _ => 0, fun _ _ => 0, fun _ _ => 0⟩))
      (assembleB fallNet 1 0 (fun l => 0 + if l = 0 then 3 else 0) 0) x' := by
  have cm := cleanMats_zero fallNet
  have hw : Wired fallNet := by constructor <;> intro k hk <;> simp_all [fallNet]
  have hs : Signed fallNet := by constructor <;> intro k hk <;> simp_all [fallNet]
  have h0 : Solves fallNet.M
      (systemMatrix fallNet (assembleMats fallNet 1 ⟨fun _ _ => 0, fun _ _ => 0, fun _ _ => 0, fun _ _ => 0⟩))
      (assembleB fallNet 1 0 (fun _ => 0) 0) (fun _ => 0) := by
    rw [solves_iff fallNet 1 _ cm hw]
    intro i _
    simp [fallNet, Network.Balanced, Links.inflow, Links.xiSum, Ctrls.inflow, Ctrls.Q]
  have h1 : Solves fallNet.M
      (systemMatrix fallNet (assembleMats fallNet 1 ⟨fun _ _ => 0, fun _ _ => 0, fun _ _ => 0, fun _ _ => 0⟩))
      (assembleB fallNet 1 0 (fun l => 0 + if l = 0 then 3 else 0) 0) (fun i => if i = 0 then 1 else 2) := by
    rw [solves_iff fallNet 1 _ cm hw]
    intro i hi
    have hi : i < 2 := hi
    rcases (by omega : i = 0 ∨ i = 1) with rfl | rfl <;>
      norm_num [fallNet, Network.Balanced, Links.inflow, Links.xiSum, Ctrls.inflow, Ctrls.Q]
  refine ⟨fun _ => 0, _, by norm_num, ?_, h1⟩
  exact (C204_overfall_iff fallNet 1 one_pos _ _ cm cm hs hw rfl (fun _ _ => rfl) rfl rfl rfl rfl rfl rfl rfl
    (q := 3) (by norm_num) h0 h1).2 (by norm_num [fallNet])

end Pipedream.Network

namespace Pipedream.Step

open Pipedream.Network Pipedream.Superlink Pipedream.Sweep

variable {m : Model} {geo : Geo} {inp : Inputs} {wk : Work} {prev cur : Hyd} {co : Coef ℝ} {x x' : ℕ → ℝ}

/-- **C204.** In still water, water added at superjunction `i` raises the head reported for any superjunction by no more than
that of `i` itself (which is within its limits). -/
theorem C204_still (c : m.Consistent) (st : StartTables m) (ps : PhysicalStep m geo inp) (cw : CleanWork m wk.mats)
    (sl : Standing m inp cur) {i : ℕ} (hi : i < m.M) {q : ℝ} (hq : 0 ≤ q)
    (p : Pass m geo inp wk prev cur co x)
    (p' : Pass m geo { inp with Q_in := fun l => inp.Q_in l + if l = i then q else 0 } wk prev cur co x')
    (lim : ∀ y ∈ [x, x'], m.z_inv i ≤ y i ∧ y i ≤ m.z_inv i + m.max_depth i) {j : ℕ} (hj : j < m.M) :
    (m.advance geo { inp with Q_in := fun l => inp.Q_in l + if l = i then q else 0 } wk cur co x').H j
        - (m.advance geo inp wk cur co x).H j
      ≤ (m.advance geo { inp with Q_in := fun l => inp.Q_in l + if l = i then q else 0 } wk cur co x').H i
        - (m.advance geo inp wk cur co x).H i := by
  have sg := signed (wk := wk) c ps p.coefs
  have h := C204_peak (m.net geo inp wk cur co) inp.dt ps.dt_pos wk.mats wk.mats cw.mats cw.mats sg (wired c)
    ((still_mutual c st ps sl p.coefs).lifts sg) hi hq p.solve p'.solve hj
  have up : x j ≤ x' j := (C15_monotone (m.net geo inp wk cur co) inp.dt ps.dt_pos wk.mats wk.mats cw.mats cw.mats sg
    (wired c) (fun _ _ => le_rfl) (fun l _ => by
      change inp.Q_in l ≤ inp.Q_in l + if l = i then q else 0
      split_ifs <;> simp [hq]) (fun _ _ => le_rfl) p.solve p'.solve
    m.z_inv m.max_depth j hj).1
  have cl : ∀ y ∈ [x, x'], clipHead m.z_inv m.max_depth y i = y i := by
    intro y hy
    obtain ⟨h1, h2⟩ := lim y hy
    rw [clipHead, max_eq_left h1, min_eq_left h2]
  simp only [Model.advance]
  rw [cl x' (by simp), cl x (by simp)]
  refine le_trans ((le_abs_self _).trans (clip_close m.z_inv m.max_depth x' x j)) ?_
  rwa [abs_of_nonneg (sub_nonneg.mpr up)]

/-- **C204 (errors).** Still water, two steps with different inflows and prescribed heads: if every error of an inflow, over one
step and spread over the water surface it enters, and every error of a prescribed head is at most `T`, then no reported head is
off by more than `T`, however large the network. -/
theorem C204_errors (c : m.Consistent) (st : StartTables m) (ps : PhysicalStep m geo inp) (cw : CleanWork m wk.mats)
    (sl : Standing m inp cur) (Q' : ℕ → ℝ) (B' : Option (ℕ → ℝ)) {T : ℝ} (hT : 0 ≤ T)
    (hQ : ∀ i, i < m.M → m.bc i = false → inp.dt * |Q' i - inp.Q_in i| ≤ surfaceAt m geo cur i * T)
    (hB : ∀ i, i < m.M → m.bc i = true → |(B'.getD cur.H) i - (inp.H_bc.getD cur.H) i| ≤ T)
    (p : Pass m geo inp wk prev cur co x) (p' : Pass m geo { inp with Q_in := Q', H_bc := B' } wk prev cur co x')
    {j : ℕ} (hj : j < m.M) :
    |(m.advance geo { inp with Q_in := Q', H_bc := B' } wk cur co x').H j - (m.advance geo inp wk cur co x).H j| ≤ T := by
  have sg := signed (wk := wk) c ps p.coefs
  have li := (still_mutual (wk := wk) c st ps sl p.coefs).lifts sg
  refine (clip_close m.z_inv m.max_depth x' x j).trans (abs_le.mpr ⟨?_, ?_⟩)
  · have h := C204_bound (m.net geo inp wk cur co) inp.dt ps.dt_pos wk.mats wk.mats cw.mats cw.mats sg (wired c) li hT
      p'.solve p.solve (fun i hi hb => ?_) (fun i hi hb => .inr ?_) hj
    · linarith
    · have := hB i hi hb
      rw [abs_sub_comm] at this
      exact (le_abs_self _).trans this
    · rw [area_eq ps]
      simp only [sub_self, mul_zero, zero_add]
      refine le_trans (mul_le_mul_of_nonneg_left ?_ ps.dt_pos.le) (hQ i hi hb)
      rw [abs_sub_comm]; exact le_abs_self _
  · refine C204_bound (m.net geo inp wk cur co) inp.dt ps.dt_pos wk.mats wk.mats cw.mats cw.mats sg (wired c) li hT
      p.solve p'.solve (fun i hi hb => ?_) (fun i hi hb => .inr ?_) hj
    · exact (le_abs_self _).trans (hB i hi hb)
    · rw [area_eq ps]
      simp only [sub_self, mul_zero, zero_add]
      exact le_trans (mul_le_mul_of_nonneg_left (le_abs_self _) ps.dt_pos.le) (hQ i hi hb)

/-- A concrete case: 0.1 added for 60 at the first superjunction of the still pond raises the second by no more than the
first, and by no more than 2. -/
example : ∃ co x x', Pass (exModel false) exGeo exInp exWork exStill exStill co x ∧
    ((exModel false).advance exGeo { exInp with Q_in := fun l => exInp.Q_in l + if l = 0 then 0.1 else 0 } exWork exStill
        co x').H 1 - ((exModel false).advance exGeo exInp exWork exStill co x).H 1
      ≤ ((exModel false).advance exGeo { exInp with Q_in := fun l => exInp.Q_in l + if l = 0 then 0.1 else 0 } exWork
        exStill co x').H 0 - ((exModel false).advance exGeo exInp exWork exStill co x).H 0 ∧
    |((exModel false).advance exGeo { exInp with Q_in := fun l => exInp.Q_in l + if l = 0 then 0.1 else 0, H_bc := none }
        exWork exStill co x').H 1 - ((exModel false).advance exGeo exInp exWork exStill co x).H 1| ≤ 2 := by
  obtain ⟨co, x, p⟩ := C06_step_exists (prev := exStill) (cur := exStill) (exConsistent false) (exPhysical false)
    (exClean false) (fun _ _ => Or.inl rfl)
  obtain ⟨x', h'⟩ := (C06_step (exConsistent false) (exPhysical false) (exClean false) p.coefs
    ((exModel false).rhs exGeo { exInp with Q_in := fun l => exInp.Q_in l + if l = 0 then 0.1 else 0 } exWork exStill
      exStill co)).1
  have p' : Pass (exModel false) exGeo { exInp with Q_in := fun l => exInp.Q_in l + if l = 0 then 0.1 else 0 } exWork exStill
    exStill co x' := ⟨p.coefs, h'⟩
  refine ⟨co, x, x', p, ?_, ?_⟩
  · refine C204_still (exConsistent false) (exStartTables false) (exPhysical false) (exClean false) exStanding
      (by simp [exModel]) (by norm_num) p p' (fun y hy => ?_) (by simp [exModel])
    have b : 3 ≤ y 0 ∧ y 0 ≤ 7 := by
      simp only [List.mem_cons, List.not_mem_nil, or_false] at hy
      rcases hy with rfl | rfl
      · rw [exStill_solved p 0 (by norm_num)]; norm_num
      · exact exRise p p' 0 (by norm_num)
    simp only [exModel]
    constructor <;> linarith [b.1, b.2]
  · refine C204_errors (exConsistent false) (exStartTables false) (exPhysical false) (exClean false) exStanding _ none
      (by norm_num) (fun i hi hb => ?_) (fun i hi hb => ?_) p p' (by simp [exModel])
    · have s := surfaceAt_ge (cur := exStill) (exPhysical false) i
      have a : exGeo.As i = 3 := rfl
      rw [a] at s
      have d : exInp.dt = 60 := rfl
      rw [d]
      have e : |exInp.Q_in i + (if i = 0 then (0.1 : ℝ) else 0) - exInp.Q_in i| ≤ 0.1 := by
        split_ifs <;> norm_num
      linarith
    · simp [exModel] at hb

end Pipedream.Step
