import Verif.QualityProps

/-! # The quality step solves its equations and keeps the bounds of the data: C55, C56, C74, C75 -/

set_option linter.unusedSectionVars false

namespace Pipedream.Quality

open Pipedream.Network Pipedream.Link Pipedream.Sweep

variable {K : Type*} [Field K] [LinearOrder K] [IsStrictOrderedRing K]

/-- Values given per superlink can be laid out in one array when the superlinks do not overlap. -/
theorem glue {NK : ℕ} (s : ℕ → ℕ) (len : ℕ → ℕ)
    (hd : ∀ k k', k < NK → k' < NK → k ≠ k' → ∀ j j', j < len k → j' < len k' → s k + j ≠ s k' + j')
    (f : ℕ → ℕ → K) : ∃ a : ℕ → K, ∀ k, k < NK → ∀ j, j < len k → a (s k + j) = f k j := by
  classical
  refine ⟨fun m => if h : ∃ q : ℕ × ℕ, q.1 < NK ∧ q.2 < len q.1 ∧ s q.1 + q.2 = m then
    f h.choose.1 h.choose.2 else 0, fun k hk j hj => ?_⟩
  have h : ∃ q : ℕ × ℕ, q.1 < NK ∧ q.2 < len q.1 ∧ s q.1 + q.2 = s k + j := ⟨(k, j), hk, hj, rfl⟩
  simp only [dif_pos h]
  obtain ⟨h1, h2, h3⟩ := h.choose_spec
  have ek : h.choose.1 = k := by
    by_contra hne
    exact hd _ _ h1 hk hne _ _ h2 hj h3
  have ej : h.choose.2 = j := by
    rw [ek] at h3; omega
  rw [ek, ej]

section
variable {w : Wiring} {p : Params K} {y : Hydro K} {inp : Inputs K} {wk : Work K} {c : Conc K}

/-- Physical data give non-zero pivots. -/
theorem pivots (W : Wired w) (P : Physical w p y inp) (B : WaterBalance w y inp) {k : ℕ} (hk : k < w.ix.NK) :
    Pivots w p y inp wk c k := by
  have hn := W.layout.pos k hk
  have S := step_signs (c := c) W P B hk
  have F := stepFwd_rel (p := p) (y := y) (inp := inp) (wk := wk) (c := c) W hk
  have Bk := stepBwd_rel (p := p) (y := y) (inp := inp) (wk := wk) (c := c) W hk
  have f := (fwd_signs S F).1
  have b := (bwd_signs S Bk).1
  have hIN : w.ix.I_Nk k = w.ix.I_1k k + (w.ix.nk k - 1) := by
    show w.ix.I_1k k + w.ix.nk k - 1 = _; omega
  have hIN1 : w.ix.I_Nk k + 1 = w.ix.I_1k k + w.ix.nk k := by rw [hIN]; omega
  have E : EndSigns (stepEndRec w p y inp wk c k) (stepEndLin p y c k) := by
    refine endSigns S (b 0 (by omega)) (f (w.ix.nk k - 1) (by omega)) ?_ ?_ ?_ ?_
    · rfl
    · rfl
    · simp only [stepEndRec, endRec, hIN1, QCoef.slice]; rw [hIN]
    · simp only [stepEndRec, endRec, hIN1, QCoef.slice]; rw [hIN]
  refine ⟨fwdPiv_of_signs hn S F, bwdPiv_of_signs hn S Bk, fun j _ hj => (b j hj).1.ne', ?_, ?_, ?_, ?_, ?_⟩
  · exact (S.kappa 0 (by omega)).ne
  · exact (S.mu _ le_rfl).ne
  · exact S.chi_u.ne
  · exact S.alpha_d.ne
  · exact (dStar_pos E).ne'

/-- Every solution `x` of the superjunction system extends to a solution of all transport equations with
the raw end values. -/
theorem transport_exists (W : Wired w) (P : Physical w p y inp) (B : WaterBalance w y inp)
    (hm : CleanMats w wk.mats) {x : ℕ → K} (hx : Solved w p y inp wk c x) :
    ∃ I i : ℕ → K, Transport w p y inp c (withEnds w p y inp wk c x I i) ∧
      ∀ k, k < w.ix.NK → I (w.ix.I_1k k + 0) = raw1 w p y inp wk c x k ∧
        I (w.ix.I_1k k + w.ix.nk k) = rawNp1 w p y inp wk c x k := by
  have ex : ∀ k, ∃ cI ci : ℕ → K, k < w.ix.NK →
      Interior ((stepCoef w p y inp c).slice (w.ix.i_1k k) (w.ix.I_1k k)) (w.ix.nk k) cI ci ∧
      cI 0 = raw1 w p y inp wk c x k ∧ cI (w.ix.nk k) = rawNp1 w p y inp wk c x k := by
    intro k
    by_cases hk : k < w.ix.NK
    · obtain ⟨cI, ci, h⟩ := interior_exists (W.layout.pos k hk)
        (stepFwd_rel (p := p) (y := y) (inp := inp) (wk := wk) (c := c) W hk)
        (pivots (wk := wk) (c := c) W P B hk).fwd (raw1 w p y inp wk c x k) (rawNp1 w p y inp wk c x k)
      exact ⟨cI, ci, fun _ => h⟩
    · exact ⟨0, 0, fun h => absurd h hk⟩
  choose cI ci h using ex
  obtain ⟨I, hI⟩ := glue (NK := w.ix.NK) w.ix.I_1k (fun k => w.ix.nk k + 1)
    (fun k k' hk hk' hne j j' hj hj' => W.layout.junctions_disjoint k k' hk hk' hne j j' (by omega) (by omega)) cI
  obtain ⟨i, hi⟩ := glue (NK := w.ix.NK) w.ix.i_1k w.ix.nk
    (fun k k' hk hk' hne j j' hj hj' => W.layout.links_disjoint k k' hk hk' hne j j' hj hj') ci
  have ends : ∀ k, k < w.ix.NK → I (w.ix.I_1k k + 0) = raw1 w p y inp wk c x k ∧
        I (w.ix.I_1k k + w.ix.nk k) = rawNp1 w p y inp wk c x k := by
    intro k hk
    obtain ⟨-, h0, hN⟩ := h k hk
    exact ⟨by rw [hI k hk 0 (by omega), h0], by rw [hI k hk _ (by omega), hN]⟩
  have ss := (solved_iff W hm x I i).mp hx
  refine ⟨I, i, ⟨fun k hk => ?_, ss.1, ss.2⟩, ends⟩
  refine linkTransport_of_interior W hk (pivots (wk := wk) (c := c) W P B hk) (x := x) rfl rfl rfl rfl
    (ends k hk).1 (ends k hk).2 ?_
  obtain ⟨S, -, -⟩ := h k hk
  refine ⟨fun j hj => ?_, fun j hj => ?_⟩
  · have := S.link j hj
    show _ * I _ + _ * i _ + _ * I _ = _
    rw [hI k hk j (by omega), hi k hk j hj, hI k hk (j+1) (by omega)]
    exact this
  · have := S.node j hj
    show _ * i _ + _ * I _ + _ * i _ = _
    rw [hi k hk j (by omega), hI k hk (j+1) (by omega), hi k hk (j+1) (by omega)]
    exact this

/-- Two arrays agree on the network. -/
structure SameOn (w : Wiring) (a b : Conc K) : Prop where
  j : ∀ i, i < w.M → a.j i = b.j i
  I : ∀ k, k < w.ix.NK → ∀ j, j ≤ w.ix.nk k → a.I (w.ix.I_1k k + j) = b.I (w.ix.I_1k k + j)
  i : ∀ k, k < w.ix.NK → ∀ j, j < w.ix.nk k → a.i (w.ix.i_1k k + j) = b.i (w.ix.i_1k k + j)
  u : ∀ k, k < w.ix.NK → a.u k = b.u k
  d : ∀ k, k < w.ix.NK → a.d k = b.d k

theorem ctrlNet_congr {n M : ℕ} {Ju Jd : ℕ → ℕ} (Q : ℕ → K) {a b : ℕ → K} (hu : ∀ k, k < n → Ju k < M)
    (hd : ∀ k, k < n → Jd k < M) (h : ∀ i, i < M → a i = b i) (i : ℕ) :
    ctrlNet n Ju Jd Q a i = ctrlNet n Ju Jd Q b i := by
  unfold ctrlNet
  refine Finset.sum_congr rfl fun k hk => ?_
  have hk := Finset.mem_range.mp hk
  rw [h _ (hu k hk), h _ (hd k hk)]

theorem linkTransport_congr (W : Wired w) {a b : Conc K} (h : SameOn w a b) {k : ℕ} (hk : k < w.ix.NK)
    (T : LinkTransport w p y inp c a k) : LinkTransport w p y inp c b k := by
  have hn := W.layout.pos k hk
  have hu := h.u k hk
  have hd := h.d k hk
  have h1 := h.j _ (W.lu k hk)
  have h2 := h.j _ (W.ld k hk)
  refine ⟨fun j hj => ?_, fun j hj => ?_, ?_, ?_⟩
  · have := T.link j hj
    rwa [h.i k hk j hj, h.I k hk j hj.le, h.I k hk (j+1) hj] at this
  · have := T.node j hj
    have e1 : nodeOut w p y a k j = nodeOut w p y b k j := by
      unfold nodeOut
      rw [hd, h.I k hk j hj]
      split_ifs with h0
      · rfl
      · rw [h.i k hk j (by omega)]
    have e2 : nodeIn w p y a k j = nodeIn w p y b k j := by
      unfold nodeIn
      rw [hu, h.I k hk j hj]
      split_ifs with h0
      · rfl
      · rw [h.i k hk (j-1) (by omega)]
    rwa [h.I k hk j hj, e1, e2] at this
  · have := T.up
    rwa [hu, h1, h.I k hk 0 (by omega)] at this
  · have := T.dn
    rwa [hd, h2, h.I k hk _ le_rfl] at this

theorem transport_congr (W : Wired w) {a b : Conc K} (h : SameOn w a b) (T : Transport w p y inp c a) :
    Transport w p y inp c b := by
  refine ⟨fun k hk => linkTransport_congr W h hk (T.links k hk), fun i hi hb => ?_, fun i hi hb => ?_⟩
  · rw [← h.j i hi]; exact T.fixed i hi hb
  · have := T.super i hi hb
    have e : superNet w p y a i = superNet w p y b i := by
      unfold superNet
      rw [ctrlNet_congr y.Qo W.ou W.od h.j, ctrlNet_congr y.Qw W.wu W.wd h.j, ctrlNet_congr y.Qp W.pu W.pd h.j]
      congr 3
      refine Finset.sum_congr rfl fun k hk => ?_
      have hk := Finset.mem_range.mp hk
      rw [h.u k hk, h.d k hk, h.j _ (W.lu k hk), h.j _ (W.ld k hk)]
    rwa [h.j i hi, e] at this

/-- The step computes a solution of the transport equations whose values respect the limits. -/
theorem advance_eq (W : Wired w) (P : Physical w p y inp) (B : WaterBalance w y inp) {lo : K} {hi : Option K}
    {x I i : ℕ → K} (T : Transport w p y inp c (withEnds w p y inp wk c x I i))
    (ends : ∀ k, k < w.ix.NK → I (w.ix.I_1k k + 0) = raw1 w p y inp wk c x k ∧
        I (w.ix.I_1k k + w.ix.nk k) = rawNp1 w p y inp wk c x k)
    (lj : ∀ i, i < w.M → limit lo hi (x i) = x i)
    (lI : ∀ k, k < w.ix.NK → ∀ j, j ≤ w.ix.nk k → limit lo hi (I (w.ix.I_1k k + j)) = I (w.ix.I_1k k + j))
    (li : ∀ k, k < w.ix.NK → ∀ j, j < w.ix.nk k → limit lo hi (i (w.ix.i_1k k + j)) = i (w.ix.i_1k k + j))
    (lu : ∀ k, k < w.ix.NK → limit lo hi (rawU w p y inp wk c x k) = rawU w p y inp wk c x k)
    (ld : ∀ k, k < w.ix.NK → limit lo hi (rawD w p y inp wk c x k) = rawD w p y inp wk c x k) :
    SameOn w (withEnds w p y inp wk c x I i) (advance w p lo hi y inp wk c x) := by
  have int : ∀ k, k < w.ix.NK →
      (∀ j, j ≤ w.ix.nk k → (advance w p lo hi y inp wk c x).I (w.ix.I_1k k + j) = I (w.ix.I_1k k + j)) ∧
      (∀ j, j < w.ix.nk k → (advance w p lo hi y inp wk c x).i (w.ix.i_1k k + j) = i (w.ix.i_1k k + j)) := by
    intro k hk
    have hn := W.layout.pos k hk
    have Pv := pivots (wk := wk) (c := c) W P B hk
    obtain ⟨rU, rD, r1, rN⟩ := raw_congr (p := p) (y := y) (inp := inp) (wk := wk) (c := c)
      (x := fun j => limit lo hi (x j)) (x' := x) (k := k) (lj _ (W.lu k hk)) (lj _ (W.ld k hk))
    have spec := numbaSolveInternals_spec (stepFwd w p y inp wk c) (stepBwd w p y inp wk c) lo hi
      (fun k => limit lo hi (raw1 w p y inp wk c (fun j => limit lo hi (x j)) k))
      (fun k => limit lo hi (rawNp1 w p y inp wk c (fun j => limit lo hi (x j)) k))
      w.ix.i_1k w.ix.I_1k w.ix.nk w.ix.NK true ⟨c.I, c.i⟩ W.layout k hk
    simp only [r1, rN, ← (ends k hk).1, ← (ends k hk).2] at spec
    rw [lI k hk 0 (by omega), lI k hk _ le_rfl] at spec
    have S := ((linkTransport_iff hk W).mp (T.links k hk)).1
    obtain ⟨a, b⟩ := internals_eq_solution hn (stepFwd_rel (wk := wk) W hk) (stepBwd_rel (wk := wk) W hk)
      Pv.fwd Pv.bwd Pv.X spec S (fun j _ hj => lI k hk j hj.le) (fun j _ hj => li k hk j hj)
    refine ⟨fun j hj => ?_, fun j hj => ?_⟩
    · exact (congrArg (limit lo hi) (a j hj)).trans (lI k hk j hj)
    · exact (congrArg (limit lo hi) (b j hj)).trans (li k hk j hj)
  refine ⟨fun i hi => (lj i hi).symm, fun k hk j hj => ((int k hk).1 j hj).symm,
    fun k hk j hj => ((int k hk).2 j hj).symm, fun k hk => ?_, fun k hk => ?_⟩
  · obtain ⟨rU, -, -, -⟩ := raw_congr (p := p) (y := y) (inp := inp) (wk := wk) (c := c)
      (x := fun j => limit lo hi (x j)) (x' := x) (k := k) (lj _ (W.lu k hk)) (lj _ (W.ld k hk))
    show _ = limit lo hi (rawU w p y inp wk c (fun j => limit lo hi (x j)) k)
    rw [rU, lu k hk]; rfl
  · obtain ⟨-, rD, -, -⟩ := raw_congr (p := p) (y := y) (inp := inp) (wk := wk) (c := c)
      (x := fun j => limit lo hi (x j)) (x' := x) (k := k) (lj _ (W.lu k hk)) (lj _ (W.ld k hk))
    show _ = limit lo hi (rawD w p y inp wk c (fun j => limit lo hi (x j)) k)
    rw [rD, ld k hk]; rfl

/-- **C74.** Maximum principle and exactness. With positive dispersion, imported hydraulics that balance
water, and limits that contain the data, the new concentrations satisfy every transport equation of the
network and lie between the smallest and the largest value found in the old concentrations, the boundary
values and the inflowing water. -/
theorem C74_maximum_principle (W : Wired w) (P : Physical w p y inp) (B : WaterBalance w y inp)
    (hm : CleanMats w wk.mats) {lo m M : K} {hi : Option K} (hlo : lo ≤ m) (hhi : ∀ q, hi = some q → M ≤ q)
    (R : ReactGe w m p) (C : AllGe w m c) (Ci : InGe w m inp c)
    (R' : ReactLe w M p) (C' : AllLe w M c) (Ci' : InLe w M inp c)
    {x : ℕ → K} (hx : Solved w p y inp wk c x) :
    Transport w p y inp c (advance w p lo hi y inp wk c x) ∧
    AllGe w m (advance w p lo hi y inp wk c x) ∧ AllLe w M (advance w p lo hi y inp wk c x) := by
  obtain ⟨I, i, T, ends⟩ := transport_exists W P B hm hx
  have L := transport_lower W P B R C Ci T
  have U := transport_upper W P B R' C' Ci' T
  have lim : ∀ {v : K}, m ≤ v → v ≤ M → limit lo hi v = v := fun h1 h2 =>
    limit_eq (hlo.trans h1) (fun q hq => h2.trans (hhi q hq))
  have S := advance_eq (lo := lo) (hi := hi) W P B T ends (fun i hi => lim (L.j i hi) (U.j i hi))
    (fun k hk j hj => lim (L.I k hk j hj) (U.I k hk j hj)) (fun k hk j hj => lim (L.i k hk j hj) (U.i k hk j hj))
    (fun k hk => lim (L.u k hk) (U.u k hk)) (fun k hk => lim (L.d k hk) (U.d k hk))
  have T' := transport_congr W S T
  exact ⟨T', transport_lower W P B R C Ci T', transport_upper W P B R' C' Ci' T'⟩

/-! ### Solvability -/

/-- A square system with only the zero solution of its homogeneous system has a solution. -/
theorem solves_exists {M : ℕ} {l : ℕ → ℕ → K}
    (h : ∀ z, Solves M l (fun _ => 0) z → ∀ i, i < M → z i = 0) (r : ℕ → K) : ∃ x, Solves M l r x := by
  let m : Matrix (Fin M) (Fin M) K := fun i j => l i j
  let ext : (Fin M → K) → ℕ → K := fun v j => if hj : j < M then v ⟨j, hj⟩ else 0
  have key : ∀ v (i : Fin M), (m.mulVecLin v) i = ∑ j ∈ Finset.range M, l i j * ext v j := by
    intro v i
    rw [Finset.sum_range, Matrix.mulVecLin_apply, Matrix.mulVec, dotProduct]
    exact Finset.sum_congr rfl (fun j _ => by simp [m, ext])
  have inj : Function.Injective m.mulVecLin := by
    rw [injective_iff_map_eq_zero]
    intro v hv
    funext i
    have s0 : Solves M l (fun _ => 0) (ext v) := by
      intro i hi
      rw [← key v ⟨i, hi⟩, hv]; rfl
    have := h _ s0 i i.2
    simpa [ext] using this
  obtain ⟨v, hv⟩ := (LinearMap.injective_iff_surjective.mp inj) (fun i => r i)
  refine ⟨ext v, fun i hi => ?_⟩
  rw [← key v ⟨i, hi⟩, hv]

/-- Old superjunction concentrations and boundary values that produce a chosen right-hand side. -/
theorem rhs_choose (hdt : y.dt ≠ 0) (hV : ∀ i, i < w.M → w.bc i = false → y.V i ≠ 0) (r : ℕ → K) :
    ∃ c' : Conc K, ∃ inp' : Inputs K, stepLhs w p y inp' wk c' = stepLhs w p y inp wk c ∧
      inp'.Q_0j = inp.Q_0j ∧ inp'.Q_0I = inp.Q_0I ∧
      ∀ i, i < w.M → stepRhs w p y inp' wk c' i = r i := by
  let D := assembleD (stepNet w p y inp wk c)
  refine ⟨{ c with j := fun i => (r i - inp.Q_0j i * inp.c_0j i - D i) * y.dt / y.V i },
    { inp with c_bc := some r }, rfl, rfl, rfl, fun i hi => ?_⟩
  by_cases hb : w.bc i = true
  · show (if w.bc i = true then _ else _) = _
    rw [if_pos hb]; rfl
  · have hV := hV i hi (by simpa using hb)
    show (if w.bc i = true then _ else _) = _
    rw [if_neg hb]
    show y.V i * ((r i - inp.Q_0j i * inp.c_0j i - D i) * y.dt / y.V i) / y.dt + inp.Q_0j i * inp.c_0j i + D i = _
    field_simp
    ring

/-- **C75.** The superjunction system always has exactly one solution, so the step is well defined. -/
theorem C75_solvable (W : Wired w) (P : Physical w p y inp) (B : WaterBalance w y inp)
    (hm : CleanMats w wk.mats) :
    (∃ x, Solved w p y inp wk c x) ∧
    ∀ x x', Solved w p y inp wk c x → Solved w p y inp wk c x' → ∀ i, i < w.M → x i = x' i := by
  have uniq : ∀ (inp' : Inputs K) (c' : Conc K), inp'.Q_0j = inp.Q_0j → inp'.Q_0I = inp.Q_0I →
      ∀ x x', Solved w p y inp' wk c' x → Solved w p y inp' wk c' x' → ∀ i, i < w.M → x i = x' i := by
    intro inp' c' hj hI x x' h h'
    have P' : Physical w p y inp' :=
      ⟨P.dt, P.dx, P.A, P.D, P.Kr, P.AS, P.KrI, by rw [hI]; exact P.Q0I, P.dxu, P.Au, P.Du, P.dxd, P.Ad, P.Dd,
        P.V, P.Krj, by rw [hj]; exact P.Q0j⟩
    have B' : WaterBalance w y inp' := ⟨B.link, by rw [hI]; exact B.node, B.up, B.dn, by rw [hj]; exact B.super⟩
    obtain ⟨I, i, T, -⟩ := transport_exists W P' B' hm h
    obtain ⟨I', i', T', -⟩ := transport_exists W P' B' hm h'
    exact (transport_unique W P' B' T T').1
  refine ⟨?_, uniq inp c rfl rfl⟩
  apply solves_exists
  intro z hz i hi
  obtain ⟨c', inp', hl, hj, hI, hr⟩ := rhs_choose (p := p) (wk := wk) (w := w) (inp := inp) (c := c) P.dt.ne'
    (fun i hi hb => (P.V i hi hb).ne') (fun _ => 0)
  have s1 : Solved w p y inp' wk c' z := by
    intro i hi
    rw [hl, hr i hi]; exact hz i hi
  have s0 : Solved w p y inp' wk c' (fun _ => 0) := by
    intro i hi
    rw [hr i hi]; simp
  exact uniq inp' c' hj hI _ _ s1 s0 i hi

/-! ### C55: uniform concentration -/

/-- The constant field. -/
def Conc.const (v : K) : Conc K := ⟨fun _ => v, fun _ => v, fun _ => v, fun _ => v, fun _ => v⟩

theorem flux_const (Q G v : K) : flux Q G v v = Q * v := by
  unfold flux upwind; split_ifs <;> ring

/-- **C55, equations.** If hydraulics balance water, nothing reacts, and old concentrations, boundary values
and inflows all have concentration `v`, the field that is `v` everywhere satisfies every transport equation —
whatever the flow directions, dispersion coefficients and volume changes. -/
theorem C55_uniform_solves (B : WaterBalance w y inp) {v : K}
    (hK : ∀ i, p.Kr i = 0) (hKI : ∀ i, p.KrI i = 0) (hKj : ∀ i, p.Krj i = 0)
    (hbc : ∀ i, i < w.M → w.bc i = true → inp.c_bc.getD (Conc.const v).j i = v)
    (h0j : ∀ i, inp.c_0j i = v) (h0I : ∀ i, inp.c_0I i = v) :
    Transport w p y inp (Conc.const v) (Conc.const v) := by
  have cell : ∀ {V V_prev net Qn Q0 : K}, net = Qn * v → (V - V_prev) / y.dt + Qn = Q0 →
      CellEq y.dt V V_prev 0 v v net (Q0 * v) := by
    intro V V_prev net Qn Q0 h1 h2
    unfold CellEq
    rw [h1, ← h2]
    ring
  have ctrl : ∀ n Ju Jd Q i, ctrlNet n Ju Jd Q (fun _ => v) i = ctrlQ n Ju Jd Q i * v := by
    intro n Ju Jd Q i
    unfold ctrlNet ctrlQ
    rw [Finset.sum_mul]
    refine Finset.sum_congr rfl fun k _ => ?_
    rw [flux_const]
    split_ifs <;> ring
  refine ⟨fun k hk => ⟨fun j hj => ?_, fun j hj => ?_, ?_, ?_⟩, fun i hi hb => (hbc i hi hb).symm, fun i hi hb => ?_⟩
  · have b := B.link k hk j hj
    have := cell (V := y.dx (w.ix.i_1k k + j) * y.A (w.ix.i_1k k + j))
      (V_prev := y.dx (w.ix.i_1k k + j) * y.A_prev (w.ix.i_1k k + j))
      (Qn := y.Q_dn (w.ix.i_1k k + j) - y.Q_up (w.ix.i_1k k + j)) (Q0 := 0) (net := _) rfl
      (by rw [← b]; ring)
    rw [zero_mul] at this
    rw [hK]
    simp only [Conc.const, linkFluxDn, linkFluxUp, flux_const, ← sub_mul]
    exact this
  · have b := B.node k hk j hj
    have e1 : nodeOut w p y (Conc.const v) k j = nodeQout w y k j * v := by
      unfold nodeOut nodeQout; split_ifs <;> simp only [Conc.const, dFluxUp, linkFluxUp, flux_const]
    have e2 : nodeIn w p y (Conc.const v) k j = nodeQin w y k j * v := by
      unfold nodeIn nodeQin; split_ifs <;> simp only [Conc.const, uFluxDn, linkFluxDn, flux_const]
    rw [e1, e2, h0I, hKI]
    exact cell (Qn := nodeQout w y k j - nodeQin w y k j) (by ring) (by rw [← b]; ring)
  · have b := B.up k hk
    have := cell (V := y.dx_u k * y.A_u k) (V_prev := y.dx_u k * y.A_u_prev k)
      (Qn := y.Qu_dn k - y.Qu_up k) (Q0 := 0) (net := _) rfl (by rw [← b]; ring)
    rw [zero_mul] at this
    simp only [Conc.const, uFluxDn, uFluxUp, flux_const, ← sub_mul]
    exact this
  · have b := B.dn k hk
    have := cell (V := y.dx_d k * y.A_d k) (V_prev := y.dx_d k * y.A_d_prev k)
      (Qn := y.Qd_dn k - y.Qd_up k) (Q0 := 0) (net := _) rfl (by rw [← b]; ring)
    rw [zero_mul] at this
    simp only [Conc.const, dFluxDn, dFluxUp, flux_const, ← sub_mul]
    exact this
  · have b := B.super i hi hb
    have e : superNet w p y (Conc.const v) i = superQ w y i * v := by
      unfold superNet superQ
      simp only [Conc.const, ctrl, uFluxUp, dFluxDn, flux_const, add_mul, Finset.sum_mul]
      congr 3
      refine Finset.sum_congr rfl fun k _ => ?_
      split_ifs <;> ring
    rw [e, h0j, hKj]
    exact cell (Qn := superQ w y i) rfl b

/-- **C55.** With positive dispersion the step returns the uniform concentration exactly, on every
superjunction, junction, link and end stretch. -/
theorem C55_uniform_preserved (W : Wired w) (P : Physical w p y inp) (B : WaterBalance w y inp)
    (hm : CleanMats w wk.mats) {lo v : K} {hi : Option K} (hlo : lo ≤ v) (hhi : ∀ q, hi = some q → v ≤ q)
    (hK : ∀ i, p.Kr i = 0) (hKI : ∀ i, p.KrI i = 0) (hKj : ∀ i, p.Krj i = 0)
    (hc : SameOn w c (Conc.const v))
    (hbc : ∀ i, i < w.M → w.bc i = true → inp.c_bc.getD c.j i = v)
    (h0j : ∀ i, inp.c_0j i = v) (h0I : ∀ i, inp.c_0I i = v)
    {x : ℕ → K} (hx : Solved w p y inp wk c x) :
    SameOn w (advance w p lo hi y inp wk c x) (Conc.const v) := by
  obtain ⟨-, L, U⟩ := C74_maximum_principle (m := v) (M := v) W P B hm hlo hhi
    ⟨fun i _ _ => by simp [hKj], fun _ _ _ _ => by simp [hKI], fun _ _ _ _ => by simp [hK]⟩
    ⟨fun i hi => (hc.j i hi).ge, fun k hk j hj => (hc.I k hk j hj).ge, fun k hk j hj => (hc.i k hk j hj).ge,
      fun k hk => (hc.u k hk).ge, fun k hk => (hc.d k hk).ge⟩
    ⟨fun i hi hb => (hbc i hi hb).ge, fun i _ _ => by rw [h0j], fun _ _ _ _ => by rw [h0I]⟩
    ⟨fun i _ _ => by simp [hKj], fun _ _ _ _ => by simp [hKI], fun _ _ _ _ => by simp [hK]⟩
    ⟨fun i hi => (hc.j i hi).le, fun k hk j hj => (hc.I k hk j hj).le, fun k hk j hj => (hc.i k hk j hj).le,
      fun k hk => (hc.u k hk).le, fun k hk => (hc.d k hk).le⟩
    ⟨fun i hi hb => (hbc i hi hb).le, fun i _ _ => by rw [h0j], fun _ _ _ _ => by rw [h0I]⟩ hx
  exact ⟨fun i hi => le_antisymm (U.j i hi) (L.j i hi), fun k hk j hj => le_antisymm (U.I k hk j hj) (L.I k hk j hj),
    fun k hk j hj => le_antisymm (U.i k hk j hj) (L.i k hk j hj), fun k hk => le_antisymm (U.u k hk) (L.u k hk),
    fun k hk => le_antisymm (U.d k hk) (L.d k hk)⟩

/-! ### C56: pure advection -/

/-- **C56, negation.** With zero dispersion on the upstream end stretch and water flowing in, the step sets
the concentration of the first junction to zero (raised to the lower limit) and gives the end stretch a
concentration that ignores the superjunction: contaminant never enters the pipe. -/
theorem C56_nothing_enters {k : ℕ} (hD : p.D_u k = 0) (hQ : 0 < y.Qu_dn k) :
    (∀ x, raw1 w p y inp wk c x k = 0) ∧
    ∀ x x', x (w.Jd k) = x' (w.Jd k) → rawU w p y inp wk c x k = rawU w p y inp wk c x' k := by
  have hchi : (endCoeffs p y c k).chi_u = 0 := by
    simp only [endCoeffs, chiIk, hD, omegaGt, if_pos hQ]; ring
  have l : stepEndLin p y c k = { stepEndLin p y c k with theta_u := 0, sigma_u := 0, xi_u := 0 } := by
    simp only [stepEndLin, endLin, hchi, safeDivide_eq, div_zero]
    try rfl
  refine ⟨fun x => ?_, fun x x' h => ?_⟩
  · unfold raw1; rw [l]; simp
  · unfold rawU; rw [l]
    simp only [rhoU, mul_zero, add_zero]
    rw [h]
    simp only [safeDivide_eq, zero_div, zero_mul]

/-- **C56, negation.** With zero dispersion on the downstream end stretch and water flowing out, the end
stretch gets concentration zero, whatever is upstream: contaminant never leaves the pipe. -/
theorem C56_nothing_leaves (W : Wired w) {k : ℕ} (hk : k < w.ix.NK) (hD : p.D_d k = 0) (hQ : 0 < y.Qd_up k) :
    ∀ x, rawD w p y inp wk c x k = 0 := by
  have S := W.nodes k hk
  have hn := W.layout.pos k hk
  have hIN1 : w.ix.I_Nk k + 1 = w.ix.I_1k k + w.ix.nk k := by
    show w.ix.I_1k k + w.ix.nk k - 1 + 1 = _; omega
  have hmu : (stepCoef w p y inp c).mu (w.ix.I_1k k + w.ix.nk k) = 0 := by
    have hs : w.nix.isStart (w.ix.I_1k k + w.ix.nk k) = false := by
      rw [Bool.eq_false_iff]; exact fun h => by have := (S.start _ le_rfl).1 h; omega
    have he : w.nix.isEnd (w.ix.I_1k k + w.ix.nk k) = true := (S.fin _ le_rfl).2 rfl
    have kk := S.kI _ le_rfl
    simp only [stepCoef, coeffs, hs, he, if_true, Bool.false_eq_true, if_false, kk, muIk, hD, omegaGt, if_pos hQ]
    ring
  have r : stepEndRec w p y inp wk c k = { stepEndRec w p y inp wk c k with U := 0, V := 0, W := 0 } := by
    simp only [stepEndRec, endRec, hIN1, hmu, safeDivide_eq, div_zero]
    try rfl
  intro x
  unfold rawD
  rw [r]
  simp [rhoD, tauD, zetaD, safeDivide_eq]

/-- **C56, negation, one step.** A pipe without dispersion carrying water downstream: after any step the
first junction and the downstream end stretch hold the lower limit (zero by default), and the contaminant
flux delivered to the downstream superjunction is `Q · c_min`, whatever concentration enters. -/
theorem C56_pure_advection_lost (W : Wired w) {lo : K} {hi : Option K} (hlo : lo = 0)
    (hhi : ∀ m, hi = some m → 0 ≤ m) {k : ℕ} (hk : k < w.ix.NK)
    (hDu : p.D_u k = 0) (hDd : p.D_d k = 0) (hQ1 : 0 < y.Qu_dn k) (hQ2 : 0 < y.Qd_up k) (hQ3 : 0 < y.Qd_dn k)
    (x : ℕ → K) :
    (advance w p lo hi y inp wk c x).I (w.ix.I_1k k + 0) = 0 ∧
    (advance w p lo hi y inp wk c x).d k = 0 ∧
    dFluxDn p y k ((advance w p lo hi y inp wk c x).d k) ((advance w p lo hi y inp wk c x).j (w.Jd k)) = 0 := by
  subst hlo
  have l0 : limit (0:K) hi 0 = 0 := limit_eq le_rfl hhi
  have h1 : (advance w p 0 hi y inp wk c x).I (w.ix.I_1k k + 0) = 0 := by
    have spec := numbaSolveInternals_spec (stepFwd w p y inp wk c) (stepBwd w p y inp wk c) 0 hi
      (fun k => limit 0 hi (raw1 w p y inp wk c (fun j => limit 0 hi (x j)) k))
      (fun k => limit 0 hi (rawNp1 w p y inp wk c (fun j => limit 0 hi (x j)) k))
      w.ix.i_1k w.ix.I_1k w.ix.nk w.ix.NK true ⟨c.I, c.i⟩ W.layout k hk
    have f := spec.first
    simp only [(C56_nothing_enters hDu hQ1).1, l0] at f
    exact (congrArg (limit 0 hi) f).trans l0
  have h2 : (advance w p 0 hi y inp wk c x).d k = 0 := by
    show limit 0 hi (rawD w p y inp wk c _ k) = 0
    rw [C56_nothing_leaves W hk hDd hQ2, l0]
  refine ⟨h1, h2, ?_⟩
  rw [h2]
  unfold dFluxDn flux upwind cond
  rw [if_pos hQ3, hDd]
  ring

/-- **C56 (partial).** With positive dispersion the concentration of the upstream end stretch increases
strictly with that of the upstream superjunction; missing: zero dispersion, where the code ignores it. -/
theorem C56_entering_partial (W : Wired w) (P : Physical w p y inp) (B : WaterBalance w y inp) {k : ℕ}
    (hk : k < w.ix.NK) {x x' : ℕ → K} (h : x (w.Ju k) < x' (w.Ju k)) (hd : x (w.Jd k) = x' (w.Jd k)) :
    rawU w p y inp wk c x k < rawU w p y inp wk c x' k := by
  have hn := W.layout.pos k hk
  have S := step_signs (c := c) W P B hk
  have f := (fwd_signs S (stepFwd_rel (wk := wk) W hk)).1
  have b := (bwd_signs S (stepBwd_rel (wk := wk) W hk)).1
  have hIN : w.ix.I_Nk k = w.ix.I_1k k + (w.ix.nk k - 1) := by
    show w.ix.I_1k k + w.ix.nk k - 1 = _; omega
  have hIN1 : w.ix.I_Nk k + 1 = w.ix.I_1k k + w.ix.nk k := by rw [hIN]; omega
  have E : EndSigns (stepEndRec w p y inp wk c k) (stepEndLin p y c k) := by
    refine endSigns S (b 0 (by omega)) (f (w.ix.nk k - 1) (by omega)) ?_ ?_ ?_ ?_
    · rfl
    · rfl
    · simp only [stepEndRec, endRec, hIN1, QCoef.slice]; rw [hIN]
    · simp only [stepEndRec, endRec, hIN1, QCoef.slice]; rw [hIN]
  have := mul_lt_mul_of_pos_left h (rhoU_pos E)
  unfold rawU
  rw [hd]
  linarith

end

end Pipedream.Quality
