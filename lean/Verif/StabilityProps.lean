import Verif.PhysicsProps

/-!
# C138: errors are not amplified by the head equations

Heads are compared in the volumes they stand for: a difference of head at a superjunction counts with the area of the
superjunction plus the surface of the end stretches attached to it.
-/

namespace Pipedream.Network

variable {K : Type*} [Field K] [LinearOrder K] [IsStrictOrderedRing K]

/-- Solutions differ, weighted by column sums, by no more than the right-hand sides. -/
theorem ColDom.l1 {M : ℕ} {bc : ℕ → Bool} {l : ℕ → ℕ → K} (h : ColDom M bc l) {w r r' x x' : ℕ → K}
    (hw : ∀ j, j < M → bc j = false → w j ≤ ∑ i ∈ (Finset.range M).filter (fun i => bc i = false), l i j)
    (hs : Solves M l r x) (hs' : Solves M l r' x') (hr : ∀ i, i < M → bc i = true → r i = r' i) :
    ∑ j ∈ (Finset.range M).filter (fun i => bc i = false), w j * |x j - x' j|
      ≤ ∑ i ∈ (Finset.range M).filter (fun i => bc i = false), |r i - r' i| := by
  set F := (Finset.range M).filter (fun i => bc i = false) with hF
  have memF : ∀ i, i ∈ F ↔ i < M ∧ bc i = false := by intro i; simp [hF]
  set e : ℕ → K := fun j => x j - x' j with he
  set s : ℕ → K := fun j => if 0 ≤ e j then 1 else -1 with hsdef
  have hse : ∀ j, s j * e j = |e j| := by
    intro j
    simp only [hsdef]
    split_ifs with h0
    · rw [abs_of_nonneg h0, one_mul]
    · rw [abs_of_neg (not_le.mp h0)]; ring
  have hs1 : ∀ i (y : K), s i * y ≤ |y| := by
    intro i y
    simp only [hsdef]
    split_ifs
    · rw [one_mul]; exact le_abs_self y
    · rw [neg_one_mul]; exact neg_le_abs y
  have he0 : ∀ j, j < M → bc j = true → e j = 0 := by
    intro j hj hb
    have h1 := hs j hj
    have h2 := hs' j hj
    rw [Finset.sum_congr rfl (fun i hi => by rw [h.bc_row j hj hb i (Finset.mem_range.mp hi)])] at h1 h2
    simp only [ite_mul, one_mul, zero_mul, Finset.sum_ite_eq, Finset.mem_range, hj, if_true] at h1 h2
    simp only [he, h1, h2, hr j hj hb, sub_self]
  have hrow : ∀ i, i < M → r i - r' i = ∑ j ∈ F, l i j * e j := by
    intro i hi
    rw [← hs i hi, ← hs' i hi, ← Finset.sum_sub_distrib]
    rw [hF, Finset.sum_filter]
    refine Finset.sum_congr rfl fun j hj => ?_
    have hj := Finset.mem_range.mp hj
    split_ifs with hb
    · simp only [he]; ring
    · have := he0 j hj (by simpa using hb)
      simp only [he] at this
      rw [← mul_sub, this, mul_zero]
  calc ∑ j ∈ F, w j * |e j| ≤ ∑ j ∈ F, ∑ i ∈ F, s i * (l i j * e j) := by
        refine Finset.sum_le_sum fun j hj => ?_
        obtain ⟨hjM, hjb⟩ := (memF j).mp hj
        calc w j * |e j| ≤ (∑ i ∈ F, l i j) * |e j| := mul_le_mul_of_nonneg_right (hw j hjM hjb) (abs_nonneg _)
          _ = ∑ i ∈ F, l i j * |e j| := Finset.sum_mul _ _ _
          _ ≤ ∑ i ∈ F, s i * (l i j * e j) := by
            refine Finset.sum_le_sum fun i hi => ?_
            obtain ⟨hiM, hib⟩ := (memF i).mp hi
            by_cases hij : i = j
            · subst hij
              rw [mul_left_comm, hse]
            · have h1 := mul_le_mul_of_nonpos_left (hs1 i (e j)) (h.off i hiM j hjM hib hij)
              calc l i j * |e j| ≤ l i j * (s i * e j) := h1
                _ = s i * (l i j * e j) := by ring
    _ = ∑ i ∈ F, s i * (r i - r' i) := by
        rw [Finset.sum_comm]
        refine Finset.sum_congr rfl fun i hi => ?_
        rw [hrow i ((memF i).mp hi).1, Finset.mul_sum]
    _ ≤ ∑ i ∈ F, |r i - r' i| := Finset.sum_le_sum fun i _ => hs1 i _

/-- Area by which a head counts: superjunction and attached end stretches. -/
def area (net : Net K) (dt : K) (j : ℕ) : K := net.As j + dt * net.links.xiSum j

/-- Column sums are at least the areas over the step size. -/
theorem system_col_weight (net : Net K) (dt : K) (m : Mats K) (hm : CleanMats net m) (hs : Signed net) (j : ℕ)
    (hj : j < net.M) (hb : net.bc j = false) :
    net.As j / dt + net.links.xiSum j
      ≤ ∑ i ∈ (Finset.range net.M).filter (fun i => net.bc i = false), systemMatrix net (assembleMats net dt m) i j := by
  have hl := (C11_no_stale_coefficients net dt m hm).1
  rw [Finset.sum_congr rfl (fun i hi => hl i j (Finset.mem_range.mp (Finset.mem_filter.mp hi).1))]
  simp only [specL, Finset.sum_add_distrib]
  have h2 := specC_col net.bc net.M net.orifices hs.oa hs.ob j hj hb
  have h3 := specC_col net.bc net.M net.weirs hs.wa hs.wb j hj hb
  have h4 := specC_col net.bc net.M net.pumps hs.pa hs.pb j hj hb
  have h1 : net.As j / dt + net.links.xiSum j
      ≤ ∑ i ∈ (Finset.range net.M).filter (fun i => net.bc i = false), specA net dt i j := by
    refine le_trans ?_ (block_col net.bc 1 (Fdiag net dt) net.links.Ju net.links.Jd net.links.beta_u
      net.links.alpha_d net.links.n net.M hs.bu hs.ad j hj hb)
    rw [Fdiag, add_assoc, ← Finset.sum_add_distrib, Links.xiSum]
    refine add_le_add le_rfl (Finset.sum_le_sum fun k hk => ?_)
    have hk := Finset.mem_range.mp hk
    have := hs.au k hk; have := hs.bd k hk
    by_cases h1 : net.links.Ju k = j <;> by_cases h2 : net.links.Jd k = j <;> simp [h1, h2] <;> linarith
  linarith

/-- **C138.** Two solves of the same head equations: the volumes by which the new heads differ add up to no more than those by
which the previous heads differ plus the volume by which the inflows differ. -/
theorem C138_heads (net : Net K) (dt : K) (hdt : 0 < dt) (m m' : Mats K) (hm : CleanMats net m)
    (hm' : CleanMats net m') (hs : Signed net) (hw : Wired net) {Hp Hp' Q0 Q0' Hbc x x' : ℕ → K}
    (hx : Solves net.M (systemMatrix net (assembleMats net dt m)) (assembleB net dt Hp Q0 Hbc) x)
    (hx' : Solves net.M (systemMatrix net (assembleMats net dt m')) (assembleB net dt Hp' Q0' Hbc) x') :
    ∑ j ∈ (Finset.range net.M).filter (fun i => net.bc i = false), area net dt j * |x j - x' j|
      ≤ ∑ j ∈ (Finset.range net.M).filter (fun i => net.bc i = false),
          (area net dt j * |Hp j - Hp' j| + dt * |Q0 j - Q0' j|) := by
  have hx'' : Solves net.M (systemMatrix net (assembleMats net dt m)) (assembleB net dt Hp' Q0' Hbc) x' := by
    rw [solves_iff net dt m hm hw]; exact (solves_iff net dt m' hm' hw _ _ _ _).mp hx'
  have key := (system_colDom net dt hdt m hm hs).l1 (fun j hj hb => system_col_weight net dt m hm hs j hj hb) hx hx''
    (fun i _ hb => by simp [assembleB, hb])
  have e : ∀ y : ℕ → K, ∑ j ∈ (Finset.range net.M).filter (fun i => net.bc i = false), area net dt j * |y j|
      = dt * ∑ j ∈ (Finset.range net.M).filter (fun i => net.bc i = false),
          (net.As j / dt + net.links.xiSum j) * |y j| := by
    intro y
    rw [Finset.mul_sum]
    refine Finset.sum_congr rfl fun j _ => ?_
    unfold area; field_simp
  rw [e (fun j => x j - x' j)]
  refine (mul_le_mul_of_nonneg_left key hdt.le).trans ?_
  rw [Finset.mul_sum]
  refine Finset.sum_le_sum fun j hj => ?_
  obtain ⟨hjM, hb⟩ : j < net.M ∧ net.bc j = false := by simpa using hj
  have hxi : 0 ≤ net.links.xiSum j := by
    apply Finset.sum_nonneg; intro k hk
    have := hs.xu k (Finset.mem_range.mp hk); have := hs.xd k (Finset.mem_range.mp hk)
    split_ifs <;> simp <;> linarith
  have ha : 0 ≤ area net dt j := by
    have := (hs.As j hjM hb).le; have := mul_nonneg hdt.le hxi; unfold area; linarith
  have e2 : dt * |assembleB net dt Hp Q0 Hbc j - assembleB net dt Hp' Q0' Hbc j|
      = |area net dt j * (Hp j - Hp' j) + dt * (Q0 j - Q0' j)| := by
    rw [← abs_of_pos hdt, ← abs_mul, abs_of_pos hdt]
    congr 1
    simp only [assembleB, hb, Bool.false_eq_true, if_false, assembleD_apply, area]
    field_simp
    ring
  rw [e2]
  refine (abs_add_le _ _).trans ?_
  rw [abs_mul, abs_mul, abs_of_nonneg ha, abs_of_pos hdt]

/-- **C138.** The heads move, in volume, by no more than the water that is out of balance at the previous heads: inflow plus
what superlinks and controls deliver at those heads. -/
theorem C138_imbalance (net : Net K) (dt : K) (hdt : 0 < dt) (m : Mats K) (hm : CleanMats net m)
    (hs : Signed net) (hw : Wired net) {Hp Q0 Hbc x : ℕ → K} (hbc : ∀ i, i < net.M → net.bc i = true → Hp i = Hbc i)
    (hx : Solves net.M (systemMatrix net (assembleMats net dt m)) (assembleB net dt Hp Q0 Hbc) x) :
    ∑ j ∈ (Finset.range net.M).filter (fun i => net.bc i = false), area net dt j * |x j - Hp j|
      ≤ dt * ∑ j ∈ (Finset.range net.M).filter (fun i => net.bc i = false),
          |Q0 j + net.links.inflow Hp j + net.orifices.inflow Hp j + net.weirs.inflow Hp j + net.pumps.inflow Hp j| := by
  -- the previous heads solve the equations for the inflow that balances them
  set R : ℕ → K := fun j => Q0 j + net.links.inflow Hp j + net.orifices.inflow Hp j + net.weirs.inflow Hp j
    + net.pumps.inflow Hp j with hR
  have h0 : Solves net.M (systemMatrix net (assembleMats net dt m))
      (assembleB net dt Hp (fun j => Q0 j - R j) Hbc) Hp := by
    rw [solves_iff net dt m hm hw]
    intro i hi
    refine ⟨hbc i hi, fun _ => ?_⟩
    simp only [Balanced, hR]; ring
  have := C138_heads net dt hdt m m hm hm hs hw hx h0
  refine this.trans (le_of_eq ?_)
  rw [Finset.mul_sum]
  refine Finset.sum_congr rfl fun j _ => ?_
  rw [sub_self, abs_zero, mul_zero, zero_add, sub_sub_cancel]

end Pipedream.Network

namespace Pipedream.Step

open Pipedream.Sweep Pipedream.Link Pipedream.Superlink Pipedream.Control Pipedream.Network

variable {m : Model} {geo : Geo} {inp : Inputs} {wk : Work} {prev cur : Hyd} {co : Coef ℝ} {x x' : ℕ → ℝ}

/-- Clipping brings heads no further apart. -/
theorem clip_close (z maxd x x' : ℕ → ℝ) (i : ℕ) : |clipHead z maxd x i - clipHead z maxd x' i| ≤ |x i - x' i| := by
  unfold clipHead
  refine (abs_min_sub_min_le_max _ _ _ _).trans ?_
  rw [sub_self, abs_zero]
  refine max_le ?_ (abs_nonneg _)
  refine (abs_max_sub_max_le_max _ _ _ _).trans ?_
  rw [sub_self, abs_zero]
  exact max_le le_rfl (abs_nonneg _)

/-- Free surface at a superjunction: its own and that of the end stretches counted with it. -/
noncomputable def surfaceAt (m : Model) (geo : Geo) (cur : Hyd) (j : ℕ) : ℝ :=
  geo.As j + ∑ k ∈ Finset.range m.ix.NK,
    ((if m.Ju k = j then endArea (cur.H j) (m.z_uk k) (m.dx_uk k) (geo.B_u k) else 0)
      + (if m.Jd k = j then endArea (cur.H j) (m.z_dk k) (m.dx_dk k) (geo.B_d k) else 0))

theorem area_eq (ps : PhysicalStep m geo inp) (j : ℕ) :
    area (m.net geo inp wk cur co) inp.dt j = surfaceAt m geo cur j := by
  have dt0 := ps.dt_pos.ne'
  unfold area surfaceAt
  congr 1
  simp only [Links.xiSum, Finset.mul_sum]
  apply Finset.sum_congr rfl
  intro k _
  rw [← xi_endArea dt0, ← xi_endArea dt0]
  by_cases a : m.Ju k = j <;> by_cases b : m.Jd k = j <;> simp [Model.net, a, b]
  ring

theorem surfaceAt_ge (ps : PhysicalStep m geo inp) (j : ℕ) : geo.As j ≤ surfaceAt m geo cur j := by
  unfold surfaceAt
  refine le_add_of_nonneg_right (Finset.sum_nonneg fun k hk => ?_)
  have hk := Finset.mem_range.mp hk
  have h1 : 0 ≤ endArea (cur.H j) (m.z_uk k) (m.dx_uk k) (geo.B_u k) := by
    have := ps.dxu k hk; have := ps.Bu k hk; unfold endArea; split_ifs <;> positivity
  have h2 : 0 ≤ endArea (cur.H j) (m.z_dk k) (m.dx_dk k) (geo.B_d k) := by
    have := ps.dxd k hk; have := ps.Bd k hk; unfold endArea; split_ifs <;> positivity
  split_ifs <;> linarith

/-- Superjunctions whose heads are not fixed. -/
def free (m : Model) : Finset ℕ := (Finset.range m.M).filter (fun i => m.bc i = false)

/-- **C138 (whole step).** Two steps from the same state which differ in the inflows only: the reported heads differ, in volume
and all superjunctions together, by no more than the water by which the inflows differ. -/
theorem C138_step (c : m.Consistent) (ps : PhysicalStep m geo inp) (cw : CleanWork m wk.mats) (Q' : ℕ → ℝ)
    (p : Pass m geo inp wk prev cur co x) (p' : Pass m geo { inp with Q_in := Q' } wk prev cur co x') :
    ∑ j ∈ free m, surfaceAt m geo cur j
        * |(m.advance geo inp wk cur co x).H j - (m.advance geo { inp with Q_in := Q' } wk cur co x').H j|
      ≤ inp.dt * ∑ j ∈ free m, |inp.Q_in j - Q' j| := by
  have h := C138_heads (m.net geo inp wk cur co) inp.dt ps.dt_pos wk.mats wk.mats cw.mats cw.mats
    (signed c ps p.coefs) (wired c) p.solve p'.solve
  refine le_trans (Finset.sum_le_sum fun j hj => ?_) (h.trans (le_of_eq ?_))
  · rw [area_eq ps]
    refine mul_le_mul_of_nonneg_left (clip_close _ _ _ _ j) ?_
    have hj := Finset.mem_filter.mp hj
    exact (ps.As j (Finset.mem_range.mp hj.1) hj.2).le.trans (surfaceAt_ge ps j)
  · rw [Finset.mul_sum]
    refine Finset.sum_congr rfl fun j _ => ?_
    rw [sub_self, abs_zero, mul_zero, zero_add]

/-- **C138 (one superjunction).** No reported head changes by more than the whole error of the inflows spread over the area of
its superjunction. -/
theorem C138_one_head (c : m.Consistent) (ps : PhysicalStep m geo inp) (cw : CleanWork m wk.mats) (Q' : ℕ → ℝ)
    (p : Pass m geo inp wk prev cur co x) (p' : Pass m geo { inp with Q_in := Q' } wk prev cur co x')
    (j : ℕ) (hj : j < m.M) (hb : m.bc j = false) :
    |(m.advance geo inp wk cur co x).H j - (m.advance geo { inp with Q_in := Q' } wk cur co x').H j|
      ≤ inp.dt * (∑ i ∈ free m, |inp.Q_in i - Q' i|) / geo.As j := by
  have h := C138_step c ps cw Q' p p'
  have hA := ps.As j hj hb
  have hs := surfaceAt_ge (cur := cur) ps j
  rw [le_div_iff₀ hA]
  have hm : j ∈ free m := by simp [free, hj, hb]
  have h1 := Finset.single_le_sum (f := fun j => surfaceAt m geo cur j
      * |(m.advance geo inp wk cur co x).H j - (m.advance geo { inp with Q_in := Q' } wk cur co x').H j|)
    (fun i hi => by
      have hi := Finset.mem_filter.mp hi
      exact mul_nonneg ((ps.As i (Finset.mem_range.mp hi.1) hi.2).le.trans (surfaceAt_ge ps i)) (abs_nonneg _)) hm
  have h2 := mul_le_mul_of_nonneg_right hs (abs_nonneg
    ((m.advance geo inp wk cur co x).H j - (m.advance geo { inp with Q_in := Q' } wk cur co x').H j))
  rw [mul_comm]
  exact h2.trans (h1.trans h)

/-- **C138 (more inflow).** If the second step receives more water nowhere less, the heads rise, and what they rise by holds no
more than the additional water. -/
theorem C138_more (c : m.Consistent) (ps : PhysicalStep m geo inp) (cw : CleanWork m wk.mats) (Q' : ℕ → ℝ)
    (hQ : ∀ j, j < m.M → inp.Q_in j ≤ Q' j)
    (p : Pass m geo inp wk prev cur co x) (p' : Pass m geo { inp with Q_in := Q' } wk prev cur co x') :
    (∀ j, j < m.M → (m.advance geo inp wk cur co x).H j ≤ (m.advance geo { inp with Q_in := Q' } wk cur co x').H j) ∧
      ∑ j ∈ free m, surfaceAt m geo cur j
          * ((m.advance geo { inp with Q_in := Q' } wk cur co x').H j - (m.advance geo inp wk cur co x).H j)
        ≤ inp.dt * ∑ j ∈ free m, (Q' j - inp.Q_in j) := by
  have hm : ∀ j, j < m.M →
      (m.advance geo inp wk cur co x).H j ≤ (m.advance geo { inp with Q_in := Q' } wk cur co x').H j := fun j hj =>
    (C15_monotone (m.net geo inp wk cur co) inp.dt ps.dt_pos wk.mats wk.mats cw.mats cw.mats (signed c ps p.coefs)
      (wired c) (fun _ _ => le_rfl) hQ (fun _ _ => le_rfl) p.solve p'.solve m.z_inv m.max_depth j hj).2
  refine ⟨hm, ?_⟩
  have h := C138_step c ps cw Q' p p'
  refine le_trans (le_of_eq ?_) (h.trans (le_of_eq ?_))
  · refine Finset.sum_congr rfl fun j hj => ?_
    have hj := Finset.mem_range.mp (Finset.mem_filter.mp hj).1
    rw [abs_sub_comm, abs_of_nonneg (sub_nonneg.mpr (hm j hj))]
  · congr 1
    refine Finset.sum_congr rfl fun j hj => ?_
    have hj := Finset.mem_range.mp (Finset.mem_filter.mp hj).1
    rw [abs_sub_comm, abs_of_nonneg (sub_nonneg.mpr (hQ j hj))]

/-- Net inflow of superjunction `j` at heads `H`: external inflow and what the relations of superlinks and controls used by the
step deliver at these heads. -/
noncomputable def netInflow (m : Model) (geo : Geo) (inp : Inputs) (wk : Work) (cur : Hyd) (co : Coef ℝ) (H : ℕ → ℝ)
    (j : ℕ) : ℝ :=
  inp.Q_in j
    + (∑ k ∈ Finset.range m.ix.NK,
        ((if m.Jd k = j then Qdk (m.endRec wk co k) (m.headCoef geo cur k) (H (m.Ju k)) (H (m.Jd k)) else 0)
        - (if m.Ju k = j then Quk (m.endRec wk co k) (m.headCoef geo cur k) (H (m.Ju k)) (H (m.Jd k)) else 0)))
    + (m.net geo inp wk cur co).orifices.inflow H j + (m.net geo inp wk cur co).weirs.inflow H j
    + (m.net geo inp wk cur co).pumps.inflow H j

/-- **C138 (from the previous heads).** If the fixed heads stay as they were and all previous heads are within their limits, the
reported heads move, in volume and all superjunctions together, by no more than the water out of balance at the previous
heads. -/
theorem C138_moves (c : m.Consistent) (ps : PhysicalStep m geo inp) (cw : CleanWork m wk.mats)
    (p : Pass m geo inp wk prev cur co x)
    (hbc : ∀ i, i < m.M → m.bc i = true → prev.H i = (inp.H_bc.getD cur.H) i)
    (hlim : ∀ j, j < m.M → m.z_inv j ≤ prev.H j ∧ prev.H j ≤ m.z_inv j + m.max_depth j) :
    ∑ j ∈ free m, surfaceAt m geo cur j * |(m.advance geo inp wk cur co x).H j - prev.H j|
      ≤ inp.dt * ∑ j ∈ free m, |netInflow m geo inp wk cur co prev.H j| := by
  have h := C138_imbalance (m.net geo inp wk cur co) inp.dt ps.dt_pos wk.mats cw.mats (signed c ps p.coefs) (wired c)
    hbc p.solve
  refine le_trans (Finset.sum_le_sum fun j hj => ?_) (h.trans (le_of_eq rfl))
  have hjf := Finset.mem_filter.mp hj
  have hjM := Finset.mem_range.mp hjf.1
  rw [area_eq ps]
  refine mul_le_mul_of_nonneg_left ?_ ((ps.As j hjM hjf.2).le.trans (surfaceAt_ge ps j))
  have e : prev.H j = clipHead m.z_inv m.max_depth prev.H j := by
    rw [clipHead, max_eq_left (hlim j hjM).1, min_eq_left (hlim j hjM).2]
  have := clip_close m.z_inv m.max_depth x prev.H j
  rw [← e] at this
  exact this

/-- Two passes as in the theorems, from the still pond with two different inflows. -/
example (Q' : ℕ → ℝ) : ∃ co x x', Pass (exModel false) exGeo exInp exWork exStill exStill co x ∧
    Pass (exModel false) exGeo { exInp with Q_in := Q' } exWork exStill exStill co x' := by
  obtain ⟨co, x, p⟩ := C06_step_exists (prev := exStill) (cur := exStill) (exConsistent false) (exPhysical false)
    (exClean false) (fun _ _ => Or.inl rfl)
  obtain ⟨x', h'⟩ := (C06_step (exConsistent false) (exPhysical false) (exClean false) p.coefs
    ((exModel false).rhs exGeo { exInp with Q_in := Q' } exWork exStill exStill co)).1
  exact ⟨co, x, x', p, ⟨p.coefs, h'⟩⟩

end Pipedream.Step
