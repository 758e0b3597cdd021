import Verif.StabilityProps

/-!
# C198: a large basin acts like a fixed head

The heads computed with a superjunction of large area are compared with those computed with that superjunction held at its
previous head.
-/

namespace Pipedream.Network

variable {K : Type*} [Field K] [LinearOrder K] [IsStrictOrderedRing K]

/-- The network with the head of superjunction `i` prescribed. -/
def Net.hold (net : Net K) (i : ℕ) : Net K := { net with bc := fun j => net.bc j || j == i }

/-- How much more flows to the other superjunctions when superjunction `i` stands higher by one. -/
def Ctrls.reach (C : Ctrls K) (i : ℕ) : K :=
  ∑ k ∈ Finset.range C.n, ((if C.Ju k = i then C.alpha k else 0) + (if C.Jd k = i then -C.beta k else 0))

/-- The same for the superlinks. -/
def Links.reach (L : Links K) (i : ℕ) : K :=
  ∑ k ∈ Finset.range L.n, ((if L.Ju k = i then L.alpha_d k else 0) + (if L.Jd k = i then -L.beta_u k else 0))

def Net.reach (net : Net K) (i : ℕ) : K :=
  net.links.reach i + net.orifices.reach i + net.weirs.reach i + net.pumps.reach i

/-- Elements which respond with `a` at their downstream and `b` at their upstream end. -/
theorem reach_sum {n : ℕ} {Ju Jd : ℕ → ℕ} {a b : ℕ → K} {F : Finset ℕ} {i : ℕ} (d : K) (ha : ∀ k, k < n → 0 ≤ a k)
    (hb : ∀ k, k < n → b k ≤ 0) :
    ∑ f ∈ F, |∑ k ∈ Finset.range n, ((if Jd k = f then (if Ju k = i then a k * d else 0) else 0)
        - (if Ju k = f then (if Jd k = i then b k * d else 0) else 0))|
      ≤ (∑ k ∈ Finset.range n, ((if Ju k = i then a k else 0) + (if Jd k = i then -b k else 0))) * |d| := by
  calc _ ≤ ∑ f ∈ F, ∑ k ∈ Finset.range n, ((if Jd k = f then (if Ju k = i then a k * |d| else 0) else 0)
        + (if Ju k = f then (if Jd k = i then -b k * |d| else 0) else 0)) := by
        refine Finset.sum_le_sum fun f _ => (Finset.abs_sum_le_sum_abs _ _).trans (Finset.sum_le_sum fun k hk => ?_)
        have h1 := ha k (Finset.mem_range.mp hk)
        have h2 := hb k (Finset.mem_range.mp hk)
        refine (abs_sub _ _).trans (add_le_add ?_ ?_)
        · split_ifs <;> simp [abs_mul, abs_of_nonneg h1]
        · split_ifs <;> simp [abs_mul, abs_of_nonpos h2]
    _ = ∑ k ∈ Finset.range n, ∑ f ∈ F, ((if Jd k = f then (if Ju k = i then a k * |d| else 0) else 0)
        + (if Ju k = f then (if Jd k = i then -b k * |d| else 0) else 0)) := Finset.sum_comm
    _ ≤ _ := by
        rw [Finset.sum_mul]
        refine Finset.sum_le_sum fun k hk => ?_
        have h1 := ha k (Finset.mem_range.mp hk)
        have h2 := hb k (Finset.mem_range.mp hk)
        have d0 := abs_nonneg d
        rw [Finset.sum_add_distrib, add_mul, Finset.sum_ite_eq, Finset.sum_ite_eq]
        refine add_le_add ?_ ?_
        · have := mul_nonneg h1 d0
          split_ifs <;> (simp; try linarith)
        · have := mul_nonneg (neg_nonneg.mpr h2) d0
          split_ifs <;> (simp; try linarith)

omit [LinearOrder K] [IsStrictOrderedRing K] in
theorem links_upd (L : Links K) (x : ℕ → K) (i : ℕ) (v : K) {f : ℕ} (hf : f ≠ i) :
    L.inflow x f - L.inflow (upd x i v) f
      = ∑ k ∈ Finset.range L.n, ((if L.Jd k = f then (if L.Ju k = i then L.alpha_d k * (x i - v) else 0) else 0)
        - (if L.Ju k = f then (if L.Jd k = i then L.beta_u k * (x i - v) else 0) else 0)) := by
  rw [Links.inflow, Links.inflow, ← Finset.sum_sub_distrib]
  refine Finset.sum_congr rfl fun k _ => ?_
  have e : ∀ j, upd x i v j = if j = i then v else x j := fun j => rfl
  simp only [Links.Qd, Links.Qu, e]
  by_cases h1 : L.Jd k = f <;> by_cases h2 : L.Ju k = f <;> by_cases h3 : L.Ju k = i <;> by_cases h4 : L.Jd k = i <;>
    simp_all <;> ring

omit [LinearOrder K] [IsStrictOrderedRing K] in
theorem ctrls_upd (L : Ctrls K) (x : ℕ → K) (i : ℕ) (v : K) {f : ℕ} (hf : f ≠ i) :
    L.inflow x f - L.inflow (upd x i v) f
      = ∑ k ∈ Finset.range L.n, ((if L.Jd k = f then (if L.Ju k = i then L.alpha k * (x i - v) else 0) else 0)
        - (if L.Ju k = f then (if L.Jd k = i then L.beta k * (x i - v) else 0) else 0)) := by
  rw [Ctrls.inflow, Ctrls.inflow, ← Finset.sum_sub_distrib]
  refine Finset.sum_congr rfl fun k _ => ?_
  have e : ∀ j, upd x i v j = if j = i then v else x j := fun j => rfl
  simp only [Ctrls.Q, e]
  by_cases h1 : L.Jd k = f <;> by_cases h2 : L.Ju k = f <;> by_cases h3 : L.Ju k = i <;> by_cases h4 : L.Jd k = i <;>
    simp_all <;> ring

/-- **C198 (holding a head).** Holding superjunction `i` at its previous head changes the other heads, in volume, by no more than
`i` would have moved times what reaches the others from it. -/
theorem C198_hold {i : ℕ} (net : Net K) (dt : K) (hdt : 0 < dt) (m m' : Mats K) (hm : CleanMats net m)
    (hm' : CleanMats (net.hold i) m') (hs : Signed net) (hw : Wired net) {Hp Q0 Hbc x x' : ℕ → K}
    (hx : Solves net.M (systemMatrix net (assembleMats net dt m)) (assembleB net dt Hp Q0 Hbc) x)
    (hx' : Solves net.M (systemMatrix (net.hold i) (assembleMats (net.hold i) dt m'))
      (assembleB (net.hold i) dt Hp Q0 (upd Hbc i (Hp i))) x') :
    ∑ j ∈ (Finset.range net.M).filter (fun j => net.bc j = false ∧ j ≠ i), area net dt j * |x j - x' j|
      ≤ dt * net.reach i * |x i - Hp i| := by
  have hwh : Wired (net.hold i) := ⟨hw.lu, hw.ld, hw.ou, hw.od, hw.wu, hw.wd, hw.pu, hw.pd⟩
  have hsh : Signed (net.hold i) := ⟨hs.ad, hs.au, hs.bu, hs.bd, hs.xu, hs.xd, hs.oa, hs.ob, hs.wa, hs.wb, hs.pa, hs.pb,
    fun j hj hb => hs.As j hj (by simp [Net.hold] at hb; exact hb.1)⟩
  set y := upd x i (Hp i) with hy
  set R : ℕ → K := fun f => (net.links.inflow x f - net.links.inflow y f) + (net.orifices.inflow x f - net.orifices.inflow y f)
    + (net.weirs.inflow x f - net.weirs.inflow y f) + (net.pumps.inflow x f - net.pumps.inflow y f) with hR
  have hyS : Solves (net.hold i).M (systemMatrix (net.hold i) (assembleMats (net.hold i) dt m'))
      (assembleB (net.hold i) dt Hp (fun f => Q0 f + R f) (upd Hbc i (Hp i))) y := by
    rw [solves_iff (net.hold i) dt m' hm' hwh]
    rw [solves_iff net dt m hm hw] at hx
    intro j hj
    by_cases hji : j = i
    · subst hji
      refine ⟨fun _ => by simp [hy], fun h => by simp [Net.hold] at h⟩
    · have e1 : y j = x j := by simp [hy, upd, hji]
      have e2 : upd Hbc i (Hp i) j = Hbc j := by simp [upd, hji]
      have e3 : (net.hold i).bc j = net.bc j := by simp [Net.hold, hji]
      rw [e2, e3, e1]
      refine ⟨(hx j hj).1, fun hb => ?_⟩
      have B := (hx j hj).2 hb
      unfold Network.Balanced at B ⊢
      rw [e1]
      simp only [Net.hold, hR]
      linear_combination B
  have h := C138_heads (net.hold i) dt hdt m' m' hm' hm' hsh hwh hyS hx'
  have eF : (Finset.range (net.hold i).M).filter (fun j => (net.hold i).bc j = false)
      = (Finset.range net.M).filter (fun j => net.bc j = false ∧ j ≠ i) := by
    ext j; simp [Net.hold]
  rw [eF] at h
  have ne : ∀ j ∈ (Finset.range net.M).filter (fun j => net.bc j = false ∧ j ≠ i), j ≠ i := fun j hj =>
    (Finset.mem_filter.mp hj).2.2
  refine (le_of_eq (Finset.sum_congr rfl fun j hj => ?_)).trans (h.trans ?_)
  · rw [show y j = x j by simp [hy, upd, ne j hj]]; rfl
  · simp only [sub_self, abs_zero, mul_zero, zero_add, add_sub_cancel_left]
    rw [← Finset.mul_sum, mul_assoc]
    refine mul_le_mul_of_nonneg_left ?_ hdt.le
    set F := (Finset.range net.M).filter (fun j => net.bc j = false ∧ j ≠ i)
    have t1 := reach_sum (Ju := net.links.Ju) (Jd := net.links.Jd) (F := F) (i := i) (x i - Hp i) hs.ad hs.bu
    have t2 := reach_sum (Ju := net.orifices.Ju) (Jd := net.orifices.Jd) (F := F) (i := i) (x i - Hp i) hs.oa hs.ob
    have t3 := reach_sum (Ju := net.weirs.Ju) (Jd := net.weirs.Jd) (F := F) (i := i) (x i - Hp i) hs.wa hs.wb
    have t4 := reach_sum (Ju := net.pumps.Ju) (Jd := net.pumps.Jd) (F := F) (i := i) (x i - Hp i) hs.pa hs.pb
    have s : ∑ f ∈ F, |R f| ≤ ∑ f ∈ F, |net.links.inflow x f - net.links.inflow y f|
        + ∑ f ∈ F, |net.orifices.inflow x f - net.orifices.inflow y f|
        + ∑ f ∈ F, |net.weirs.inflow x f - net.weirs.inflow y f| + ∑ f ∈ F, |net.pumps.inflow x f - net.pumps.inflow y f| := by
      rw [← Finset.sum_add_distrib, ← Finset.sum_add_distrib, ← Finset.sum_add_distrib]
      refine Finset.sum_le_sum fun f _ => ?_
      refine (abs_add_le _ _).trans (add_le_add ((abs_add_le _ _).trans (add_le_add (abs_add_le _ _) le_rfl)) le_rfl)
    refine s.trans ?_
    have u1 := (le_of_eq (Finset.sum_congr rfl fun f hf => congrArg abs (links_upd net.links x i (Hp i) (ne f hf)))).trans t1
    have u2 := (le_of_eq (Finset.sum_congr rfl fun f hf => congrArg abs (ctrls_upd net.orifices x i (Hp i) (ne f hf)))).trans t2
    have u3 := (le_of_eq (Finset.sum_congr rfl fun f hf => congrArg abs (ctrls_upd net.weirs x i (Hp i) (ne f hf)))).trans t3
    have u4 := (le_of_eq (Finset.sum_congr rfl fun f hf => congrArg abs (ctrls_upd net.pumps x i (Hp i) (ne f hf)))).trans t4
    rw [Net.reach, add_mul, add_mul, add_mul]
    exact add_le_add (add_le_add (add_le_add u1 u2) u3) u4

end Pipedream.Network

namespace Pipedream.Step

open Pipedream.Sweep Pipedream.Link Pipedream.Superlink Pipedream.Control Pipedream.Network

variable {m : Model} {geo : Geo} {inp : Inputs} {wk : Work} {prev cur : Hyd} {co : Coef ℝ} {x x' : ℕ → ℝ} {M' : Mats ℝ}

/-- The model with a boundary condition at superjunction `i`. -/
def Model.hold (m : Model) (i : ℕ) : Model := { m with bc := fun j => m.bc j || j == i }

/-- Superjunction `i` is held at its previous head. -/
noncomputable def Inputs.hold (inp : Inputs) (prev cur : Hyd) (i : ℕ) : Inputs :=
  { inp with H_bc := some (upd (inp.H_bc.getD cur.H) i (prev.H i)) }

theorem reach_nonneg {net : Net ℝ} (hs : Signed net) (i : ℕ) : 0 ≤ net.reach i := by
  have h : ∀ (n : ℕ) (Ju Jd : ℕ → ℕ) (a b : ℕ → ℝ), (∀ k, k < n → 0 ≤ a k) → (∀ k, k < n → b k ≤ 0) →
      0 ≤ ∑ k ∈ Finset.range n, ((if Ju k = i then a k else 0) + (if Jd k = i then -b k else 0)) := by
    intro n Ju Jd a b ha hb
    refine Finset.sum_nonneg fun k hk => add_nonneg ?_ ?_
    · have := ha k (Finset.mem_range.mp hk); split_ifs <;> simp [this]
    · have := hb k (Finset.mem_range.mp hk); split_ifs <;> simp [this]
  exact add_nonneg (add_nonneg (add_nonneg (h _ _ _ _ _ hs.ad hs.bu) (h _ _ _ _ _ hs.oa hs.ob)) (h _ _ _ _ _ hs.wa hs.wb))
    (h _ _ _ _ _ hs.pa hs.pb)

/-- **C198 (the basin).** The level of a basin moves in a step by no more than all water out of balance at the previous heads,
spread over its area. -/
theorem C198_basin (c : m.Consistent) (ps : PhysicalStep m geo inp) (cw : CleanWork m wk.mats) {i : ℕ} (hi : i ∈ free m)
    (hbc : ∀ j, j < m.M → m.bc j = true → prev.H j = (inp.H_bc.getD cur.H) j)
    (p : Pass m geo inp wk prev cur co x) :
    geo.As i * |x i - prev.H i| ≤ inp.dt * ∑ j ∈ free m, |netInflow m geo inp wk cur co prev.H j| := by
  have h := C138_imbalance (m.net geo inp wk cur co) inp.dt ps.dt_pos wk.mats cw.mats (signed c ps p.coefs) (wired c)
    hbc p.solve
  have h1 := Finset.single_le_sum (f := fun j => area (m.net geo inp wk cur co) inp.dt j * |x j - prev.H j|) (fun j hj => by
    have hj := Finset.mem_filter.mp hj
    rw [area_eq ps]
    exact mul_nonneg ((ps.As j (Finset.mem_range.mp hj.1) hj.2).le.trans (surfaceAt_ge ps j)) (abs_nonneg _)) hi
  beta_reduce at h1
  rw [area_eq ps] at h1
  exact (mul_le_mul_of_nonneg_right (surfaceAt_ge ps i) (abs_nonneg _)).trans (h1.trans (h.trans (le_of_eq rfl)))

/-- **C198 (one step).** The reported heads of the others differ from those with the basin held at its level by no more than a
quantity inversely proportional to the area of the basin. -/
theorem C198_step (c : m.Consistent) (ps : PhysicalStep m geo inp) (cw : CleanWork m wk.mats) {i : ℕ} (hi : i ∈ free m)
    (cw' : CleanWork (m.hold i) M') (hbc : ∀ j, j < m.M → m.bc j = true → prev.H j = (inp.H_bc.getD cur.H) j)
    (p : Pass m geo inp wk prev cur co x)
    (p' : Pass (m.hold i) geo (inp.hold prev cur i) { wk with mats := M' } prev cur co x') {j : ℕ} (hj : j ∈ free m)
    (hji : j ≠ i) :
    geo.As i * (geo.As j * |(m.advance geo inp wk cur co x).H j
        - ((m.hold i).advance geo (inp.hold prev cur i) { wk with mats := M' } cur co x').H j|)
      ≤ inp.dt ^ 2 * (m.net geo inp wk cur co).reach i * ∑ l ∈ free m, |netInflow m geo inp wk cur co prev.H l| := by
  have sg := signed (wk := wk) c ps p.coefs
  have h := C198_hold (i := i) (m.net geo inp wk cur co) inp.dt ps.dt_pos wk.mats M' cw.mats
    (CleanWork.mats (m := m.hold i) (geo := geo) (inp := inp) (wk := { wk with mats := M' }) (cur := cur) (co := co) cw')
    sg (wired c) p.solve p'.solve
  have hj' := Finset.mem_filter.mp hj
  have hjM := Finset.mem_range.mp hj'.1
  have h1 := Finset.single_le_sum (f := fun j => area (m.net geo inp wk cur co) inp.dt j * |x j - x' j|)
    (s := (Finset.range m.M).filter (fun j => m.bc j = false ∧ j ≠ i)) (fun l hl => by
    have hl := Finset.mem_filter.mp hl
    rw [area_eq ps]
    exact mul_nonneg ((ps.As l (Finset.mem_range.mp hl.1) hl.2.1).le.trans (surfaceAt_ge ps l)) (abs_nonneg _))
    (show j ∈ _ by simp [hjM, hj'.2, hji])
  beta_reduce at h1
  rw [area_eq ps] at h1
  have b := C198_basin c ps cw hi hbc p
  have hj0 := ps.As j hjM hj'.2
  have hi' := Finset.mem_filter.mp hi
  have hi0 := ps.As i (Finset.mem_range.mp hi'.1) hi'.2
  have r0 := reach_nonneg sg i
  have e1 : geo.As j * |(m.advance geo inp wk cur co x).H j
        - ((m.hold i).advance geo (inp.hold prev cur i) { wk with mats := M' } cur co x').H j|
      ≤ inp.dt * (m.net geo inp wk cur co).reach i * |x i - prev.H i| := by
    have cc : |(m.advance geo inp wk cur co x).H j
        - ((m.hold i).advance geo (inp.hold prev cur i) { wk with mats := M' } cur co x').H j| ≤ |x j - x' j| :=
      clip_close m.z_inv m.max_depth x x' j
    exact (mul_le_mul_of_nonneg_left cc hj0.le).trans ((mul_le_mul_of_nonneg_right (surfaceAt_ge ps j) (abs_nonneg _)).trans
      (h1.trans h))
  have e2 := mul_le_mul_of_nonneg_left e1 hi0.le
  have e3 := mul_le_mul_of_nonneg_left b (mul_nonneg ps.dt_pos.le r0)
  refine e2.trans (le_trans (le_of_eq ?_) (e3.trans (le_of_eq ?_))) <;> ring

/-- The same geometry with another area of superjunction `i`. -/
noncomputable def Geo.withArea (geo : Geo) (i : ℕ) (A : ℝ) : Geo := { geo with As := upd geo.As i A }

/-- **C198.** However small a difference is allowed, from some area on the basin acts like a fixed head: a step with the basin
and a step with its superjunction held at its level report heads which differ by no more, at all superjunctions. -/
theorem C198_large (c : m.Consistent) (ps : PhysicalStep m geo inp) (cw : CleanWork m wk.mats) {i : ℕ} (hi : i ∈ free m)
    (cw' : CleanWork (m.hold i) M') (hbc : ∀ j, j < m.M → m.bc j = true → prev.H j = (inp.H_bc.getD cur.H) j)
    (hc : StepCoefs m.g m.N (m.linkIn geo inp prev cur) (m.nodeIn geo inp prev) m.nix co) {ε : ℝ} (hε : 0 < ε) :
    ∃ A₀, 0 < A₀ ∧ ∀ A, A₀ ≤ A → ∀ x x', Pass m (geo.withArea i A) inp wk prev cur co x →
      Pass (m.hold i) (geo.withArea i A) (inp.hold prev cur i) { wk with mats := M' } prev cur co x' →
      ∀ j, j < m.M → |(m.advance (geo.withArea i A) inp wk cur co x).H j
        - ((m.hold i).advance (geo.withArea i A) (inp.hold prev cur i) { wk with mats := M' } cur co x').H j| ≤ ε := by
  set N := ∑ l ∈ free m, |netInflow m geo inp wk cur co prev.H l| with hN
  set G := (m.net geo inp wk cur co).reach i with hG
  have N0 : 0 ≤ N := Finset.sum_nonneg fun _ _ => abs_nonneg _
  have G0 : 0 ≤ G := reach_nonneg (signed c ps hc) i
  have hdt := ps.dt_pos
  set B : ℝ := ∑ l ∈ free m, inp.dt ^ 2 * G * N / (ε * geo.As l) with hB
  have Bl : ∀ l ∈ free m, 0 ≤ inp.dt ^ 2 * G * N / (ε * geo.As l) := fun l hl => by
    have hl := Finset.mem_filter.mp hl
    have := ps.As l (Finset.mem_range.mp hl.1) hl.2
    positivity
  have B0 : 0 ≤ B := Finset.sum_nonneg Bl
  refine ⟨inp.dt * N / ε + B + 1, by positivity, fun A hA x x' p p' j hj => ?_⟩
  have t0 : 0 ≤ inp.dt * N / ε := by positivity
  have A0 : 0 < A := by linarith
  have psA : PhysicalStep m (geo.withArea i A) inp :=
    ⟨ps.g_pos, ps.dt_pos, ps.A_pos, ps.R_pos, ps.B_nonneg, ps.sigma_pos, ps.n_pos, ps.dx_pos, ps.C_nonneg, ps.AS_nonneg,
      ps.Bu, ps.Bd, ps.dxu, ps.dxd, ps.Cu, ps.Cd, fun l hl hb => by
        by_cases h : l = i
        · subst h; simpa [Geo.withArea] using A0
        · simpa [Geo.withArea, upd, h] using ps.As l hl hb, ps.u_p, ps.b_p⟩
  have eA : (geo.withArea i A).As i = A := by simp [Geo.withArea]
  by_cases hb : m.bc j = true
  · -- prescribed in both
    have h1 := ((solves_iff (m.net (geo.withArea i A) inp wk cur co) inp.dt wk.mats cw.mats (wired c) _ _ _ _).mp p.solve j hj).1
      hb
    have cwm : CleanMats ((m.hold i).net (geo.withArea i A) (inp.hold prev cur i) { wk with mats := M' } cur co) M' :=
      CleanWork.mats (m := m.hold i) (geo := geo.withArea i A) (inp := inp.hold prev cur i) (wk := { wk with mats := M' })
        (cur := cur) (co := co) cw'
    have wh : Wired ((m.hold i).net (geo.withArea i A) (inp.hold prev cur i) { wk with mats := M' } cur co) := by
      have hw := wired (geo := geo) (inp := inp) (wk := wk) (cur := cur) (co := co) c
      exact ⟨hw.lu, hw.ld, hw.ou, hw.od, hw.wu, hw.wd, hw.pu, hw.pd⟩
    have h2 := ((solves_iff _ inp.dt M' cwm wh _ _ _ _).mp p'.solve j hj).1 (by simp [Model.net, Model.hold, hb])
    have hji : j ≠ i := by rintro rfl; have := (Finset.mem_filter.mp hi).2; simp [hb] at this
    have e : x j = x' j := by
      rw [h1, h2]; simp [Inputs.hold, upd, hji]
    have cc : |(m.advance (geo.withArea i A) inp wk cur co x).H j
        - ((m.hold i).advance (geo.withArea i A) (inp.hold prev cur i) { wk with mats := M' } cur co x').H j| ≤ |x j - x' j| :=
      clip_close m.z_inv m.max_depth x x' j
    rw [e, sub_self, abs_zero] at cc
    exact cc.trans hε.le
  have hb : m.bc j = false := by simpa using hb
  have hjf : j ∈ free m := by simp [free, hj, hb]
  by_cases hji : j = i
  · subst hji
    have b := C198_basin c psA cw hi hbc p
    rw [eA] at b
    have cwm : CleanMats ((m.hold j).net (geo.withArea j A) (inp.hold prev cur j) { wk with mats := M' } cur co) M' :=
      CleanWork.mats (m := m.hold j) (geo := geo.withArea j A) (inp := inp.hold prev cur j) (wk := { wk with mats := M' })
        (cur := cur) (co := co) cw'
    have wh : Wired ((m.hold j).net (geo.withArea j A) (inp.hold prev cur j) { wk with mats := M' } cur co) := by
      have hw := wired (geo := geo) (inp := inp) (wk := wk) (cur := cur) (co := co) c
      exact ⟨hw.lu, hw.ld, hw.ou, hw.od, hw.wu, hw.wd, hw.pu, hw.pd⟩
    have h2 := ((solves_iff _ inp.dt M' cwm wh _ _ _ _).mp p'.solve j hj).1 (by simp [Model.net, Model.hold])
    have e : x' j = prev.H j := by rw [h2]; simp [Inputs.hold]
    have cc : |(m.advance (geo.withArea j A) inp wk cur co x).H j
        - ((m.hold j).advance (geo.withArea j A) (inp.hold prev cur j) { wk with mats := M' } cur co x').H j| ≤ |x j - x' j| :=
      clip_close m.z_inv m.max_depth x x' j
    rw [e] at cc
    refine cc.trans ?_
    have b' : A * |x j - prev.H j| ≤ inp.dt * N := b
    have : inp.dt * N ≤ A * ε := by
      have : inp.dt * N / ε ≤ A := by linarith
      rwa [div_le_iff₀ hε] at this
    exact le_of_mul_le_mul_left (b'.trans this) A0
  · have h := C198_step c psA cw hi cw' hbc p p' hjf hji
    have ej : (geo.withArea i A).As j = geo.As j := by simp [Geo.withArea, upd, hji]
    rw [eA, ej] at h
    have h' : A * (geo.As j * |(m.advance (geo.withArea i A) inp wk cur co x).H j
        - ((m.hold i).advance (geo.withArea i A) (inp.hold prev cur i) { wk with mats := M' } cur co x').H j|)
        ≤ inp.dt ^ 2 * G * N := h
    have j0 := ps.As j hj hb
    have : inp.dt ^ 2 * G * N / (ε * geo.As j) ≤ A := by
      have := Finset.single_le_sum Bl hjf
      linarith
    rw [div_le_iff₀ (by positivity)] at this
    have k := h'.trans this
    have k : A * (geo.As j * |(m.advance (geo.withArea i A) inp wk cur co x).H j
        - ((m.hold i).advance (geo.withArea i A) (inp.hold prev cur i) { wk with mats := M' } cur co x').H j|)
        ≤ A * (geo.As j * ε) := k.trans (le_of_eq (by ring))
    exact le_of_mul_le_mul_left (le_of_mul_le_mul_left k A0) j0

/-! ### A concrete case: `exModel` with its first superjunction a metre higher than the second -/

example : ∃ co A₀, 0 < A₀ ∧ ∀ A, A₀ ≤ A → ∃ x x',
    Pass (exModel false) (exGeo.withArea 0 A) exInp exWork { exStill with H := fun j => if j = 0 then 5 else 4 }
      { exStill with H := fun j => if j = 0 then 5 else 4 } co x ∧
    ∀ j, j < 2 → |((exModel false).advance (exGeo.withArea 0 A) exInp exWork
        { exStill with H := fun j => if j = 0 then 5 else 4 } co x).H j
      - (((exModel false).hold 0).advance (exGeo.withArea 0 A) (exInp.hold { exStill with H := fun j => if j = 0 then 5 else 4 }
        { exStill with H := fun j => if j = 0 then 5 else 4 } 0) exWork
        { exStill with H := fun j => if j = 0 then 5 else 4 } co x').H j| ≤ 0.001 := by
  set s : Hyd := { exStill with H := fun j => if j = 0 then 5 else 4 }
  obtain ⟨co, x₀, p₀⟩ := C06_step_exists (prev := s) (cur := s) (exConsistent false) (exPhysical false) (exClean false)
    (fun _ _ => Or.inl rfl)
  have cw' : CleanWork ((exModel false).hold 0) exWork.mats := by
    constructor <;> constructor <;> intros <;> simp [exWork]
  obtain ⟨A₀, h0, h⟩ := C198_large (i := 0) (M' := exWork.mats) (exConsistent false) (exPhysical false) (exClean false)
    (by simp [free, exModel]) cw' (fun j _ hb => by simp [exModel] at hb) p₀.coefs (ε := 0.001) (by norm_num)
  refine ⟨co, A₀, h0, fun A hA => ?_⟩
  have psA : PhysicalStep (exModel false) (exGeo.withArea 0 A) exInp := by
    have ps := exPhysical false
    exact ⟨ps.g_pos, ps.dt_pos, ps.A_pos, ps.R_pos, ps.B_nonneg, ps.sigma_pos, ps.n_pos, ps.dx_pos, ps.C_nonneg,
      ps.AS_nonneg, ps.Bu, ps.Bd, ps.dxu, ps.dxd, ps.Cu, ps.Cd, fun l hl hb => by
        by_cases h : l = 0
        · subst h; simpa [Geo.withArea] using lt_of_lt_of_le h0 hA
        · simpa [Geo.withArea, upd, h] using ps.As l hl hb, ps.u_p, ps.b_p⟩
  have psH : PhysicalStep ((exModel false).hold 0) (exGeo.withArea 0 A) (exInp.hold s s 0) :=
    ⟨psA.g_pos, psA.dt_pos, psA.A_pos, psA.R_pos, psA.B_nonneg, psA.sigma_pos, psA.n_pos, psA.dx_pos, psA.C_nonneg,
      psA.AS_nonneg, psA.Bu, psA.Bd, psA.dxu, psA.dxd, psA.Cu, psA.Cd, fun l hl hb => psA.As l hl (by simp [exModel]),
      psA.u_p, psA.b_p⟩
  have cH : ((exModel false).hold 0).Consistent := by
    have c := exConsistent false
    exact ⟨c.layout, c.inN, c.nodes, c.Ju, c.Jd, c.Juo, c.Jdo, c.Juw, c.Jdw, c.Jup, c.Jdp⟩
  obtain ⟨x, hx⟩ := (C06_step (wk := exWork) (prev := s) (cur := s) (co := co) (exConsistent false) psA (exClean false) p₀.coefs
    ((exModel false).rhs (exGeo.withArea 0 A) exInp exWork s s co)).1
  obtain ⟨x', hx'⟩ := (C06_step (wk := exWork) (prev := s) (cur := s) (co := co) cH psH cw' p₀.coefs
    (((exModel false).hold 0).rhs (exGeo.withArea 0 A) (exInp.hold s s 0) exWork s s co)).1
  exact ⟨x, x', ⟨p₀.coefs, hx⟩, h A hA x x' ⟨p₀.coefs, hx⟩ ⟨p₀.coefs, hx'⟩⟩

end Pipedream.Step
