import Verif.FloorProps

/-!
# C159: what crosses the fixed heads is what the rest of the network gains

A superjunction with a fixed head gives or takes as much water as its head needs; the reported flows say how
much. Here: the water gained by the free superjunctions and the pipes in a step is what is supplied to them plus
what comes from the fixed superjunctions, also where limits act, and an inflow given to a fixed superjunction
counts for nothing.
-/

namespace Pipedream.Step

open Pipedream.Sweep Pipedream.Link Pipedream.Superlink Pipedream.Control Pipedream.Network
open Pipedream.Geometry Pipedream.Interp

variable {m : Model} {geo : Geo} {inp : Inputs} {wk : Work} {prev cur : Hyd} {co : Coef ℝ} {x : ℕ → ℝ}

noncomputable section

/-! ### Specification -/

/-- Superjunctions with a fixed head. -/
def fixedJ (m : Model) : Finset ℕ := (Finset.range m.M).filter fun i => m.bc i = true

/-- Superjunctions without a fixed head. -/
def freeJ (m : Model) : Finset ℕ := (Finset.range m.M).filter fun i => ¬ m.bc i = true

/-- Water gained in a step by the free superjunctions and the pipes. -/
def gainedFree (m : Model) (geo : Geo) (prev cur next : Hyd) : ℝ :=
  (∑ i ∈ freeJ m, surfaceAt m geo cur i * (next.H i - prev.H i))
  + ∑ k ∈ Finset.range m.ix.NK, ∑ j ∈ Finset.range (m.ix.nk k + 1),
      surfaceArea m geo k j * (next.h (m.ix.I_1k k + j) - prev.h (m.ix.I_1k k + j))

/-- Water supplied during the step to free superjunctions and to pipes. -/
def suppliedFree (m : Model) (inp : Inputs) : ℝ :=
  inp.dt * ((∑ i ∈ freeJ m, inp.Q_in i)
    + ∑ k ∈ Finset.range m.ix.NK, ∑ j ∈ Finset.range (m.ix.nk k + 1), inp.Q_0Ik (m.ix.I_1k k + j))

/-- Water which left superjunction `i` through pipes, by the reported end flows. -/
def leftThroughPipes (m : Model) (dt : ℝ) (next : Hyd) (i : ℕ) : ℝ :=
  dt * ∑ k ∈ Finset.range m.ix.NK, ((if m.Ju k = i then next.Qu k else 0) - (if m.Jd k = i then next.Qd k else 0))

/-- Water which left superjunction `i` through orifices, weirs and pumps, by the linear relations of the
step evaluated at the heads `H`. -/
def leftThroughControls (m : Model) (geo : Geo) (inp : Inputs) (wk : Work) (cur : Hyd) (co : Coef ℝ) (H : ℕ → ℝ)
    (i : ℕ) : ℝ :=
  - (inp.dt * ((m.net geo inp wk cur co).orifices.inflow H i + (m.net geo inp wk cur co).weirs.inflow H i
    + (m.net geo inp wk cur co).pumps.inflow H i))

/-- Weight of a head in the balance of the free superjunctions. -/
def headWeightFree (m : Model) (geo : Geo) (inp : Inputs) (wk : Work) (cur : Hyd) (co : Coef ℝ) (j : ℕ) : ℝ :=
  inp.dt * ∑ i ∈ freeJ m, m.lhs geo inp wk cur co i j

/-! ### The account -/

theorem sum_free (m : Model) (f : ℕ → ℝ) :
    ∑ i ∈ freeJ m, f i = ∑ i ∈ Finset.range m.M, f i - ∑ i ∈ fixedJ m, f i := by
  rw [freeJ, fixedJ, ← Finset.sum_filter_add_sum_filter_not (Finset.range m.M) (fun i => m.bc i = true) f]
  ring

/-- The free superjunctions: with any heads they gain what flows in, apart from what changing the heads of the
solution to these heads adds. -/
theorem free_heads_account (c : m.Consistent) (ps : PhysicalStep m geo inp) (cw : CleanWork m wk.mats)
    (p : Pass m geo inp wk prev cur co x) (y : ℕ → ℝ) :
    ∑ i ∈ freeJ m, surfaceAt m geo cur i * (y i - prev.H i)
      = inp.dt * ∑ i ∈ freeJ m, (inp.Q_in i + (m.net geo inp wk cur co).links.inflow y i
          + (m.net geo inp wk cur co).orifices.inflow y i + (m.net geo inp wk cur co).weirs.inflow y i
          + (m.net geo inp wk cur co).pumps.inflow y i)
        + ∑ j ∈ Finset.range m.M, headWeightFree m geo inp wk cur co j * (y j - x j) := by
  set net := m.net geo inp wk cur co with hnet
  set I : ℕ → ℝ := fun i => net.links.inflow y i + net.orifices.inflow y i + net.weirs.inflow y i
    + net.pumps.inflow y i with hI
  set q : ℕ → ℝ := fun i => (net.As i / inp.dt + net.links.xiSum i) * (y i - prev.H i) - I i with hq
  have hx := p.solve
  have hy : Solves m.M (m.lhs geo inp wk cur co) (assembleB net inp.dt prev.H q y) y := by
    refine (solves_iff net inp.dt wk.mats cw.mats (wired c) prev.H q y y).2 fun i _ => ⟨fun _ => rfl, fun _ => ?_⟩
    simp only [Network.Balanced, hq, hI]
    ring
  have key : ∑ j ∈ Finset.range m.M, headWeightFree m geo inp wk cur co j * (y j - x j)
      = inp.dt * ∑ i ∈ freeJ m, (q i - inp.Q_in i) := by
    have row : ∀ i ∈ freeJ m, ∑ j ∈ Finset.range m.M, m.lhs geo inp wk cur co i j * (y j - x j)
        = q i - inp.Q_in i := by
      intro i hi
      obtain ⟨hi, hb⟩ := Finset.mem_filter.mp hi
      have hi := Finset.mem_range.mp hi
      have h1 := hy i hi
      have h2 := hx i hi
      simp only [mul_sub, Finset.sum_sub_distrib]
      rw [h1, h2]
      have hbi : net.bc i = false := (Bool.not_eq_true _).mp hb
      simp only [Model.rhs, ← hnet, assembleB, hbi, Bool.false_eq_true, if_false]
      ring
    rw [← Finset.sum_congr rfl row, Finset.sum_comm, Finset.mul_sum]
    apply Finset.sum_congr rfl
    intro j _
    rw [headWeightFree, mul_assoc, Finset.sum_mul]
  rw [key, ← mul_add, ← Finset.sum_add_distrib, Finset.mul_sum]
  apply Finset.sum_congr rfl
  intro i _
  rw [← area_eq (wk := wk) (co := co) ps i, ← hnet]
  have dt0 := ps.dt_pos.ne'
  simp only [hq, hI, Network.area]
  field_simp
  ring

/-- The pipes gain what enters at their ends and sides, plus what limiting their depths adds. -/
theorem pipes_account (c : m.Consistent) (st : StartTables m) (ps : PhysicalStep m geo inp)
    (p : Pass m geo inp wk prev cur co x) (he : m.end_method = .b) {k : ℕ} (hk : k < m.ix.NK) {s : Hyd}
    (e : Exact m geo inp wk prev cur co (m.advance geo inp wk cur co x).H k s) :
    ∑ j ∈ Finset.range (m.ix.nk k + 1),
      surfaceArea m geo k j * ((m.advance geo inp wk cur co x).h (m.ix.I_1k k + j) - prev.h (m.ix.I_1k k + j))
      = inp.dt * ((m.advance geo inp wk cur co x).Qu k - (m.advance geo inp wk cur co x).Qd k)
        + inp.dt * ∑ j ∈ Finset.range (m.ix.nk k + 1), inp.Q_0Ik (m.ix.I_1k k + j)
        + ∑ j ∈ Finset.range (m.ix.nk k + 1), surfaceArea m geo k j
            * ((m.advance geo inp wk cur co x).h (m.ix.I_1k k + j) - s.h (m.ix.I_1k k + j)) := by
  set next := m.advance geo inp wk cur co x with hnext
  have dt0 := ps.dt_pos.ne'
  obtain ⟨f1, f2⟩ := e.flows c st ps he p.coefs hk
  have S := continuity_sum (c.layout.pos k hk) ((saintVenant_iff c st ps p.coefs s hk).2 ⟨e.momentum, e.continuity⟩)
  have g1 : s.Qu k = next.Qu k := f1
  have g2 : s.Qd k = next.Qd k := f2
  rw [g1, g2] at S
  rw [S, ← mul_add, ← Finset.sum_add_distrib, Finset.mul_sum, ← Finset.sum_add_distrib]
  apply Finset.sum_congr rfl
  intro j hj
  have hj : j ≤ m.ix.nk k := by have := Finset.mem_range.mp hj; omega
  obtain ⟨eE, eD⟩ := node_coeffs_eq (y := m.nodeIn geo inp prev) (c.layout.pos k hk) (c.nodes k hk) hj
  simp only [Coef.slice]
  rw [p.coefs.2.1, p.coefs.2.2, eE, eD, surfaceArea_eq]
  simp only [Model.nodeIn]
  field_simp
  ring

/-- **C159 (account).** In every step of every network, with or without fixed heads: the water gained by free
superjunctions and pipes is the water supplied to them, plus the water which left the fixed superjunctions,
plus what limiting depths and heads adds. Default end method. -/
theorem C159_account (c : m.Consistent) (st : StartTables m) (ps : PhysicalStep m geo inp)
    (cw : CleanWork m wk.mats) (p : Pass m geo inp wk prev cur co x) (he : m.end_method = .b) {s : ℕ → Hyd}
    (hs : ∀ k, k < m.ix.NK → Exact m geo inp wk prev cur co (m.advance geo inp wk cur co x).H k (s k)) :
    gainedFree m geo prev cur (m.advance geo inp wk cur co x)
      = suppliedFree m inp
        + ∑ i ∈ fixedJ m, (leftThroughPipes m inp.dt (m.advance geo inp wk cur co x) i
            + leftThroughControls m geo inp wk cur co (m.advance geo inp wk cur co x).H i)
        + ∑ k ∈ Finset.range m.ix.NK, ∑ j ∈ Finset.range (m.ix.nk k + 1), surfaceArea m geo k j
            * ((m.advance geo inp wk cur co x).h (m.ix.I_1k k + j) - (s k).h (m.ix.I_1k k + j))
        + ∑ j ∈ Finset.range m.M, headWeightFree m geo inp wk cur co j
            * ((m.advance geo inp wk cur co x).H j - x j) := by
  have pipe := fun k (hk : k ∈ Finset.range m.ix.NK) =>
    pipes_account c st ps p he (Finset.mem_range.mp hk) (hs k (Finset.mem_range.mp hk))
  set next := m.advance geo inp wk cur co x with hnext
  have hw : Wired (m.net geo inp wk cur co) := wired c
  have hd := free_heads_account c ps cw p next.H
  have e : ∑ k ∈ Finset.range (m.net geo inp wk cur co).links.n,
      ((m.net geo inp wk cur co).links.Qd next.H k - (m.net geo inp wk cur co).links.Qu next.H k)
      = - ∑ k ∈ Finset.range m.ix.NK, (next.Qu k - next.Qd k) := by
    rw [← Finset.sum_neg_distrib]
    apply Finset.sum_congr rfl
    intro k _
    rw [hnext, (C07_reported_flows k).1, (C07_reported_flows k).2]
    ring
  rw [Finset.sum_add_distrib, Finset.sum_add_distrib, Finset.sum_add_distrib, Finset.sum_add_distrib,
    sum_free m ((m.net geo inp wk cur co).links.inflow next.H),
    sum_free m ((m.net geo inp wk cur co).orifices.inflow next.H),
    sum_free m ((m.net geo inp wk cur co).weirs.inflow next.H),
    sum_free m ((m.net geo inp wk cur co).pumps.inflow next.H),
    ctrl_inflow_sum _ m.M hw.ou hw.od, ctrl_inflow_sum _ m.M hw.wu hw.wd, ctrl_inflow_sum _ m.M hw.pu hw.pd,
    link_inflow_sum _ m.M hw.lu hw.ld, e] at hd
  have lp : ∀ i ∈ fixedJ m, leftThroughPipes m inp.dt next i + leftThroughControls m geo inp wk cur co next.H i
      = - (inp.dt * ((m.net geo inp wk cur co).links.inflow next.H i + (m.net geo inp wk cur co).orifices.inflow next.H i
        + (m.net geo inp wk cur co).weirs.inflow next.H i + (m.net geo inp wk cur co).pumps.inflow next.H i)) := by
    intro i _
    have : leftThroughPipes m inp.dt next i = - (inp.dt * (m.net geo inp wk cur co).links.inflow next.H i) := by
      rw [leftThroughPipes, Links.inflow, ← mul_neg, ← Finset.sum_neg_distrib]
      congr 1
      apply Finset.sum_congr rfl
      intro k _
      rw [hnext, (C07_reported_flows k).1, (C07_reported_flows k).2, neg_sub]
      rfl
    rw [this, leftThroughControls]
    ring
  have left := Finset.sum_congr rfl lp
  have tot : ∀ a b c d : ℕ → ℝ, ∑ i ∈ fixedJ m, -(inp.dt * (a i + b i + c i + d i))
      = -(inp.dt * (∑ i ∈ fixedJ m, a i + ∑ i ∈ fixedJ m, b i + ∑ i ∈ fixedJ m, c i + ∑ i ∈ fixedJ m, d i)) := by
    intro a b c d
    rw [Finset.sum_neg_distrib, ← Finset.mul_sum, Finset.sum_add_distrib, Finset.sum_add_distrib, Finset.sum_add_distrib]
  rw [tot] at left
  rw [gainedFree, hd, Finset.sum_congr rfl pipe, left, Finset.sum_add_distrib, Finset.sum_add_distrib, suppliedFree,
    ← Finset.mul_sum, ← Finset.mul_sum]
  ring

/-- **C159.** If no limit acts in the step, the free superjunctions and the pipes gain exactly what is supplied
to them plus what left the fixed superjunctions. -/
theorem C159_conserved (c : m.Consistent) (st : StartTables m) (ps : PhysicalStep m geo inp)
    (cw : CleanWork m wk.mats) (p : Pass m geo inp wk prev cur co x) (he : m.end_method = .b)
    (uc : Unclipped m x (m.advance geo inp wk cur co x)
      (endDepthU m geo wk cur co (m.advance geo inp wk cur co x).H)
      (endDepthD m geo wk cur co (m.advance geo inp wk cur co x).H)) :
    gainedFree m geo prev cur (m.advance geo inp wk cur co x)
      = suppliedFree m inp
        + ∑ i ∈ fixedJ m, (leftThroughPipes m inp.dt (m.advance geo inp wk cur co x) i
            + leftThroughControls m geo inp wk cur co (m.advance geo inp wk cur co x).H i) := by
  have ex : ∀ k, ∃ s, k < m.ix.NK → Exact m geo inp wk prev cur co (m.advance geo inp wk cur co x).H k s := fun k => by
    by_cases hk : k < m.ix.NK
    · obtain ⟨s, h⟩ := exact_exists (wk := wk) c st ps he p.coefs hk (m.advance geo inp wk cur co x).H
      exact ⟨s, fun _ => h⟩
    · exact ⟨cur, fun h => absurd h hk⟩
  choose s hs using ex
  rw [C159_account c st ps cw p he hs]
  have heads : ∑ j ∈ Finset.range m.M, headWeightFree m geo inp wk cur co j
      * ((m.advance geo inp wk cur co x).H j - x j) = 0 := by
    apply Finset.sum_eq_zero
    intro j hj
    have hj := uc.heads j (Finset.mem_range.mp hj)
    have : (m.advance geo inp wk cur co x).H j = x j := by
      show clipHead m.z_inv m.max_depth x j = x j
      rw [clipHead, max_eq_left hj.1, min_eq_left hj.2]
    rw [this, sub_self, mul_zero]
  have pipes : ∑ k ∈ Finset.range m.ix.NK, ∑ j ∈ Finset.range (m.ix.nk k + 1), surfaceArea m geo k j
      * ((m.advance geo inp wk cur co x).h (m.ix.I_1k k + j) - (s k).h (m.ix.I_1k k + j)) = 0 := by
    refine Finset.sum_eq_zero fun k hk => Finset.sum_eq_zero fun j hj => ?_
    have hk := Finset.mem_range.mp hk
    have hj := Finset.mem_range.mp hj
    have e := hs k hk
    obtain ⟨r0, rn, ri⟩ := e.reported c st ps p.coefs hk
    obtain ⟨ri, -⟩ := ri (uc.depths k hk)
    obtain ⟨eu, ed, -⟩ := uc.ends k hk
    have : (m.advance geo inp wk cur co x).h (m.ix.I_1k k + j) = (s k).h (m.ix.I_1k k + j) := by
      rcases Nat.eq_zero_or_pos j with rfl | h1
      · rw [add_zero, r0, e.first, max_eq_right eu]
      · rcases Nat.lt_or_ge j (m.ix.nk k) with h2 | h2
        · exact ri j h1 h2
        · obtain rfl : j = m.ix.nk k := by omega
          rw [rn, e.last, max_eq_right ed]
    rw [this, sub_self, mul_zero]
  rw [heads, pipes, add_zero, add_zero]

/-- A fixed superjunction without orifices, weirs and pumps loses nothing through them. -/
theorem C159_no_controls {i : ℕ} (ho : ∀ a, a < m.n_o → m.Juo a ≠ i ∧ m.Jdo a ≠ i)
    (hw : ∀ a, a < m.n_w → m.Juw a ≠ i ∧ m.Jdw a ≠ i) (hp : ∀ a, a < m.n_p → m.Jup a ≠ i ∧ m.Jdp a ≠ i) (H : ℕ → ℝ) :
    leftThroughControls m geo inp wk cur co H i = 0 := by
  have z : ∀ C : Ctrls ℝ, (∀ a, a < C.n → C.Ju a ≠ i ∧ C.Jd a ≠ i) → C.inflow H i = 0 := fun C h => by
    refine Finset.sum_eq_zero fun a ha => ?_
    have := h a (Finset.mem_range.mp ha)
    rw [if_neg this.1, if_neg this.2, sub_zero]
  rw [leftThroughControls, z _ ho, z _ hw, z _ hp]
  simp

/-- **C159 (without fixed heads).** The account then is that of `C149_account` and C16. -/
theorem C159_free (hb : ∀ i, i < m.M → m.bc i = false) (next : Hyd) :
    gainedFree m geo prev cur next = gained m geo prev cur next ∧ suppliedFree m inp = supplied m inp ∧ fixedJ m = ∅ := by
  have f : freeJ m = Finset.range m.M := Finset.filter_true_of_mem fun i hi => by
    rw [hb i (Finset.mem_range.mp hi)]; simp
  refine ⟨by rw [gainedFree, gained, f], by rw [suppliedFree, supplied, f], ?_⟩
  exact Finset.filter_false_of_mem fun i hi => by rw [hb i (Finset.mem_range.mp hi)]; simp

/-! ### An inflow into a fixed superjunction -/

/-- **C159 (inflows at fixed heads are ignored).** Two calls whose inflows differ only at fixed superjunctions
do exactly the same. -/
theorem C159_inflow_ignored {P : Plan} {first : Bool} {o o' : Obj} {q : ℕ → ℝ}
    (same : ∀ i, i < m.M → m.bc i = false → q i = inp.Q_in i) (h : Calls1 m P first inp o o') :
    Calls1 m P first { inp with Q_in := q } o o' := by
  obtain ⟨Ao, co, x, ho, p, rfl⟩ := h
  refine ⟨Ao, co, x, ho, ⟨p.coefs, fun i hi => ?_⟩, rfl⟩
  refine (p.solve i hi).trans ?_
  show (if _ then _ else _) = (if _ then _ else _)
  by_cases hb : m.bc i = true
  · have hb' : (m.net (m.geoOf P o.hid Ao o.cur) inp o.wk o.cur co).bc i = true := hb
    have hb2 : (m.net (m.geoOf P o.hid Ao o.cur) { inp with Q_in := q } o.wk o.cur co).bc i = true := hb
    rw [if_pos hb', if_pos hb2]
  · have hb' : ¬ (m.net (m.geoOf P o.hid Ao o.cur) inp o.wk o.cur co).bc i = true := hb
    have hb2 : ¬ (m.net (m.geoOf P o.hid Ao o.cur) { inp with Q_in := q } o.wk o.cur co).bc i = true := hb
    rw [if_neg hb', if_neg hb2]
    show _ = _ + q i + _
    rw [same i hi (by simpa using hb)]
    rfl

/-- … over whole sequences of calls. -/
theorem C159_inflow_ignored_run {P : Plan} : ∀ {calls calls' : List (Bool × Inputs)} {o o' : Obj},
    List.Forall₂ (fun a b => b.1 = a.1 ∧ ∃ q : ℕ → ℝ, (∀ i, i < m.M → m.bc i = false → q i = a.2.Q_in i) ∧
      b.2 = { a.2 with Q_in := q }) calls calls' →
    History m P calls o o' → History m P calls' o o'
  | [], _, _, _, .nil, h => h
  | _ :: _, _, _, _, .cons ⟨e, q', s, e2⟩ r, ⟨o1, h1, h2⟩ =>
    ⟨o1, by rw [e, e2]; exact C159_inflow_ignored s h1, C159_inflow_ignored_run r h2⟩

/-! ### A concrete case -/

/-- A channel between two superjunctions held at one metre, filled to the depth `d`: the step fills it up, and
the `10 (1 - d)` cubic metres come from the two superjunctions. -/
theorem C159_filled {d : ℝ} (hd : 1 / 100 ≤ d) {Ao : ℕ → ℝ} {co : Coef ℝ} {x : ℕ → ℝ} {inp : Inputs}
    (good : GoodInputs (inModel true) inPlan inp) (held : ∀ i, inp.H_bc.getD (fun _ => 1) i = 1)
    (lateral : ∀ I, inp.Q_0Ik I = 0)
    (p : Pass (inModel true) ((inModel true).geoOf inPlan (Hidden.fresh (inGiven d).Ao) Ao ((inModel true).start (inGiven d)))
      inp freshWork ((inModel true).start (inGiven d)) ((inModel true).start (inGiven d)) co x) :
    ∑ i ∈ Finset.range 2, leftThroughPipes (inModel true) inp.dt
      ((inModel true).advance ((inModel true).geoOf inPlan (Hidden.fresh (inGiven d).Ao) Ao ((inModel true).start (inGiven d)))
        inp freshWork ((inModel true).start (inGiven d)) co x) i = 10 * (1 - d) := by
  have wet : ∀ I, (inModel true).min_depth ≤ (inGiven d).hJ I := fun _ => by simpa [inModel, reModel, inGiven] using hd
  have ps := physical_geoOf (inSound true) good (Hidden.fresh (inGiven d).Ao) Ao
    (s := (inModel true).start (inGiven d)) wet
  have pre : ∀ I, ((inModel true).start (inGiven d)).h I = d := fun _ => rfl
  generalize hgeo : (inModel true).geoOf inPlan (Hidden.fresh (inGiven d).Ao) Ao ((inModel true).start (inGiven d)) = geo at p ps ⊢
  have au : 0 < geo.A_u 0 := by
    rw [← hgeo]
    show 0 < upTo 1 _ 0
    rw [upTo_of_lt _ (by norm_num)]
    refine Section.A_pos (md := (inModel true).min_depth) (by norm_num [inModel, reModel])
      ((inSound true).sec 0 (by norm_num [inModel, reModel])) (wet 0) ?_
    simp only [Hidden.fresh, inStart]
    norm_num [inModel, reModel]
  have ad : 0 < geo.A_d 0 := by
    rw [← hgeo]
    show 0 < upTo 1 _ 0
    rw [upTo_of_lt _ (by norm_num)]
    refine Section.A_pos (md := (inModel true).min_depth) (by norm_num [inModel, reModel])
      ((inSound true).sec 0 (by norm_num [inModel, reModel])) (wet 0) ?_
    simp only [Hidden.fresh, inStart]
    norm_num [inModel, reModel]
  have sa : ∀ j, j < 2 → surfaceArea (inModel true) geo 0 j = 5 := by
    intro j hj
    rw [← hgeo]
    obtain rfl | rfl : j = 0 ∨ j = 1 := by omega
    all_goals
      norm_num [surfaceArea, inModel, reModel, Model.geoOf, inPlan, rePlan, Section.B, topWidth, rectOpenB]
  have x1 : ∀ i, i < 2 → x i = 1 := by
    intro i hi
    have h := ((solves_iff ((inModel true).net geo inp freshWork _ co) inp.dt freshWork.mats (freshClean _).mats
      (wired (inConsistent true)) _ _ _ _).1 p.solve i hi).1 rfl
    have e : ((inModel true).start (inGiven d)).H = fun _ => 1 := funext fun j => inStart true d j
    rw [h, e, held]
  have cons := C159_conserved (inConsistent true) (inTables true) ps (freshClean _) p rfl
  have ends := C04_end_depths (wk := freshWork) (cur := (inModel true).start (inGiven d)) (co := co) (x := x) ps au ad
  have rep := fun uc => C04_reported_end_depths (inp := inp) (inConsistent true)
    (geo := geo) (wk := freshWork) (cur := (inModel true).start (inGiven d)) (co := co) (x := x) uc
    (show 0 < (inModel true).ix.NK by norm_num [inModel, reModel])
  have fx : ∀ i, i < 2 → ((inModel true).advance geo inp freshWork ((inModel true).start (inGiven d)) co x).H i = 1 := by
    intro i hi
    show min (max (x i) 0) (0 + 10) = 1
    rw [x1 i hi]; norm_num
  generalize hnx : (inModel true).advance geo inp freshWork ((inModel true).start (inGiven d)) co x = nx at *
  have j0 : (inModel true).Ju 0 = 0 := rfl
  have j1 : (inModel true).Jd 0 = 1 := rfl
  have zu : (inModel true).z_uk 0 = 0 := rfl
  have zd : (inModel true).z_dk 0 = 0 := rfl
  have q0 : ((inModel true).start (inGiven d)).Qu 0 = 0 := rfl
  have q1 : ((inModel true).start (inGiven d)).Qd 0 = 0 := rfl
  simp only [j0, j1, zu, zd, q0, q1, inStart, fx 0 (by norm_num), fx 1 (by norm_num)] at ends
  norm_num at ends
  have uc : Unclipped (inModel true) x nx (endDepthU (inModel true) geo freshWork ((inModel true).start (inGiven d)) co nx.H)
      (endDepthD (inModel true) geo freshWork ((inModel true).start (inGiven d)) co nx.H) := by
    refine ⟨fun j hj => ?_, fun k hk => ?_, fun k hk j h1 h2 => ?_⟩
    · rw [x1 j hj]; norm_num [inModel, reModel]
    · have : k = 0 := by simp only [inModel, reModel] at hk; omega
      subst this
      rw [ends.1, ends.2]
      norm_num [inModel, reModel]
    · simp only [inModel, reModel] at h2; omega
  obtain ⟨r0, r1⟩ := rep uc
  rw [ends.1] at r0
  rw [ends.2] at r1
  have cons := cons uc
  have I1 : (inModel true).ix.I_1k 0 = 0 := rfl
  have n1 : (inModel true).ix.nk 0 = 1 := rfl
  have N1 : (inModel true).ix.NK = 1 := rfl
  have fr : freeJ (inModel true) = ∅ := Finset.filter_false_of_mem fun i _ => by simp [inModel]
  have fi : fixedJ (inModel true) = Finset.range 2 := Finset.filter_true_of_mem fun i _ => rfl
  have ctl : ∀ i ∈ Finset.range 2, leftThroughPipes (inModel true) inp.dt nx i
      + leftThroughControls (inModel true) geo inp freshWork ((inModel true).start (inGiven d)) co nx.H i
      = leftThroughPipes (inModel true) inp.dt nx i := fun i _ => by
    rw [C159_no_controls (fun a ha => absurd ha (Nat.not_lt_zero _)) (fun a ha => absurd ha (Nat.not_lt_zero _))
      (fun a ha => absurd ha (Nat.not_lt_zero _)), add_zero]
  rw [gainedFree, suppliedFree, fr, fi, Finset.sum_congr rfl ctl, N1, Finset.sum_range_one, Finset.sum_range_one, n1, I1,
    Finset.sum_range_succ, Finset.sum_range_one, Finset.sum_range_succ, Finset.sum_range_one] at cons
  rw [I1] at r0
  rw [I1, n1] at r1
  simp only [Finset.sum_empty, lateral, zero_add, add_zero, mul_zero, pre, sa 0 (by norm_num), sa 1 (by norm_num), r0] at cons
  rw [zero_add] at r1
  rw [r1] at cons
  linarith

/-- The channel half full, ten seconds, no matter what inflow is given to the held superjunctions: five cubic
metres. -/
example : ∃ o', Calls1 (inModel true) inPlan true { reInp 1 with dt := 10, H_bc := none, Q_in := fun _ => 7 }
      ⟨(inModel true).start (inGiven (1 / 2)), (inModel true).start (inGiven (1 / 2)), freshWork,
        Hidden.fresh (inGiven (1 / 2)).Ao⟩ o' ∧
    ∑ i ∈ Finset.range 2, leftThroughPipes (inModel true) 10 o'.cur i = 5 := by
  have good : GoodInputs (inModel true) inPlan { reInp 1 with dt := 10, H_bc := none, Q_in := fun _ => 7 } :=
    ⟨by norm_num, fun p hp => by simp [inModel, reModel] at hp, fun a ha => by simp [inModel, reModel] at ha⟩
  obtain ⟨o', h⟩ := C105_step_succeeds (inSound true) good true (o := ⟨(inModel true).start (inGiven (1 / 2)),
    (inModel true).start (inGiven (1 / 2)), freshWork, Hidden.fresh (inGiven (1 / 2)).Ao⟩)
    ⟨freshClean _, fun _ => by norm_num [inModel, reModel, Model.start, inGiven]⟩
  refine ⟨o', h, ?_⟩
  obtain ⟨Ao, co, x, -, p, rfl⟩ := h
  have := C159_filled (d := 1 / 2) (by norm_num) good (fun _ => rfl) (fun _ => rfl) p
  norm_num at this
  exact this

end

end Pipedream.Step
