import Verif.StepProps

/-!
# C41, C11: the scratch arrays carry nothing from one step to the next

A `SuperLink` object keeps many arrays besides the hydraulic state (`Work`): system matrices, sweep
coefficients, control coefficients. `save_state`/`load_state` do not store them. Here: the outcome of a
pass does not depend on them, nor does the outcome of any sequence of passes, so that restoring the
hydraulic state restores everything that matters.
-/

namespace Pipedream.Step

open Pipedream.Sweep Pipedream.Link Pipedream.Superlink Pipedream.Control Pipedream.Network

variable {m : Model} {geo : Geo} {inp : Inputs} {prev prev' cur cur' : Hyd} {co co' : Coef ℝ} {x x' : ℕ → ℝ}

/-- Two states agree on every entry that exists (arrays are functions on all naturals in the model). -/
structure Agree (m : Model) (s s' : Hyd) : Prop where
  H : ∀ i, i < m.M → s.H i = s'.H i
  h : s.h = s'.h
  Q : s.Q = s'.Q
  Qu : ∀ k, k < m.ix.NK → s.Qu k = s'.Qu k
  Qd : ∀ k, k < m.ix.NK → s.Qd k = s'.Qd k
  Qo : ∀ k, k < m.n_o → s.Qo k = s'.Qo k
  Qw : ∀ k, k < m.n_w → s.Qw k = s'.Qw k
  Qp : ∀ k, k < m.n_p → s.Qp k = s'.Qp k

theorem Agree.refl (s : Hyd) : Agree m s s := by
  constructor <;> intros <;> rfl

theorem Agree.symm {s s' : Hyd} (h : Agree m s s') : Agree m s' s :=
  ⟨fun i hi => (h.H i hi).symm, h.h.symm, h.Q.symm, fun i hi => (h.Qu i hi).symm,
    fun i hi => (h.Qd i hi).symm, fun i hi => (h.Qo i hi).symm, fun i hi => (h.Qw i hi).symm,
    fun i hi => (h.Qp i hi).symm⟩

/-- Two coefficient sets agree on the links that exist. -/
structure CoAgree (N : ℕ) (co co' : Coef ℝ) : Prop where
  a : ∀ i, i < N → co.a i = co'.a i
  b : ∀ i, i < N → co.b i = co'.b i
  c : ∀ i, i < N → co.c i = co'.c i
  P : ∀ i, i < N → co.P i = co'.P i
  A : ∀ i, i < N → co.A i = co'.A i
  E : co.E = co'.E
  D : co.D = co'.D

theorem FwdRel.congr {g : ℝ} {co co' : Coef ℝ} {n : ℕ} (hn : 1 ≤ n) {T U V W : ℕ → ℝ}
    (e : CoAgree n co co') (R : FwdRel g co n T U V W) : FwdRel g co' n T U V W := by
  refine ⟨?_, ?_, ?_, ?_, fun j hj => ?_, fun j hj => ?_, fun j hj => ?_, fun j hj => ?_⟩
  · rw [R.T0, e.a 0 hn, e.b 0 hn, e.c 0 hn]
  · rw [R.U0, e.E, e.c 0 hn, e.A 0 hn]
  · rw [R.V0, e.P 0 hn, e.D, e.c 0 hn, e.a 0 hn]
  · rw [R.W0, e.A 0 hn, e.a 0 hn, e.E]
  · rw [R.Ts j hj, e.a _ hj, e.b _ hj, e.c _ hj, e.A _ hj, e.E]
  · rw [R.Us j hj, e.E, e.c _ hj, e.A _ hj]
  · rw [R.Vs j hj, e.P _ hj, e.a _ hj, e.D, e.c _ hj, e.A _ hj, e.E]
  · rw [R.Ws j hj, e.A _ hj, e.E, e.a _ hj]

theorem BwdRel.congr {g : ℝ} {co co' : Coef ℝ} {n : ℕ} (hn : 1 ≤ n) {O X Y Z : ℕ → ℝ}
    (e : CoAgree n co co') (R : BwdRel g co n O X Y Z) : BwdRel g co' n O X Y Z := by
  have hl : n - 1 < n := by omega
  refine ⟨?_, ?_, ?_, ?_, fun j h0 hj => ?_, fun j h0 hj => ?_, fun j h0 hj => ?_, fun j h0 hj => ?_⟩
  · rw [R.On, e.a _ hl, e.b _ hl, e.c _ hl]
  · rw [R.Xn, e.E, e.a _ hl, e.A _ hl]
  · rw [R.Yn, e.P _ hl, e.D, e.c _ hl, e.a _ hl]
  · rw [R.Zn, e.A _ hl, e.c _ hl, e.E]
  · have : j < n := by omega
    rw [R.Os j h0 hj, e.a _ this, e.b _ this, e.c _ this, e.A _ this, e.E]
  · have : j < n := by omega
    rw [R.Xs j h0 hj, e.E, e.a _ this, e.A _ this]
  · have : j < n := by omega
    rw [R.Ys j h0 hj, e.P _ this, e.a _ this, e.D, e.c _ this, e.A _ this, e.E]
  · have : j < n := by omega
    rw [R.Zs j h0 hj, e.A _ this, e.E, e.c _ this]

theorem CoAgree.slice {N : ℕ} {co co' : Coef ℝ} (e : CoAgree N co co') {n i1 I1 : ℕ} (h : i1 + n ≤ N) :
    CoAgree n (co.slice i1 I1) (co'.slice i1 I1) :=
  ⟨fun i hi => e.a _ (by omega), fun i hi => e.b _ (by omega), fun i hi => e.c _ (by omega),
    fun i hi => e.P _ (by omega), fun i hi => e.A _ (by omega), by funext i; exact congrFun e.E _,
    by funext i; exact congrFun e.D _⟩

/-- The sweeps leave the same coefficients on a superlink whatever the arrays held. -/
theorem sweeps_scratch (c : m.Consistent) (e : CoAgree m.N co co') (wk wk' : Work) {k : ℕ}
    (hk : k < m.ix.NK) :
    (∀ j, j < m.ix.nk k → (m.fwd wk co).U (m.ix.I_1k k + j) = (m.fwd wk' co').U (m.ix.I_1k k + j) ∧
      (m.fwd wk co).V (m.ix.I_1k k + j) = (m.fwd wk' co').V (m.ix.I_1k k + j) ∧
      (m.fwd wk co).W (m.ix.I_1k k + j) = (m.fwd wk' co').W (m.ix.I_1k k + j)) ∧
    (∀ j, j < m.ix.nk k → (m.bwd wk co).X (m.ix.I_1k k + j) = (m.bwd wk' co').X (m.ix.I_1k k + j) ∧
      (m.bwd wk co).Y (m.ix.I_1k k + j) = (m.bwd wk' co').Y (m.ix.I_1k k + j) ∧
      (m.bwd wk co).Z (m.ix.I_1k k + j) = (m.bwd wk' co').Z (m.ix.I_1k k + j)) := by
  have n1 := c.layout.pos k hk
  have es := e.slice (I1 := m.ix.I_1k k) (c.inN k hk)
  have F := fwdRel_unique (FwdRel.congr n1 es (sweptFwd_rel m.g co m.ix wk.f c.layout hk))
    (sweptFwd_rel m.g co' m.ix wk'.f c.layout hk)
  have B := bwdRel_unique (BwdRel.congr n1 es (sweptBwd_rel m.g co m.ix wk.b c.layout hk))
    (sweptBwd_rel m.g co' m.ix wk'.b c.layout hk)
  exact ⟨fun j hj => (F j hj).2, fun j hj => (B j hj).2⟩

/-- The end coefficients of a superlink do not depend on what the sweep arrays held. -/
theorem endRec_scratch (c : m.Consistent) (e : CoAgree m.N co co') (wk wk' : Work) {k : ℕ}
    (hk : k < m.ix.NK) : m.endRec wk co k = m.endRec wk' co' k := by
  have n1 := c.layout.pos k hk
  obtain ⟨F, B⟩ := sweeps_scratch c e wk wk' hk
  obtain ⟨u, v, w⟩ := F (m.ix.nk k - 1) (by omega)
  obtain ⟨xx, y, z⟩ := B 0 (by omega)
  unfold Model.endRec Superlink.endRec
  cases m.end_method
  · simp only [u, v, w, xx, y, z]
  · simp only [u, v, w, xx, y, z, Coef.slice, e.E, e.D]

theorem headCoef_agree (c : m.Consistent) (a : Agree m cur cur') {k : ℕ} (hk : k < m.ix.NK) :
    m.headCoef geo cur k = m.headCoef geo cur' k := by
  unfold Model.headCoef
  rw [a.H _ (c.Ju k hk), a.H _ (c.Jd k hk), a.Qu k hk, a.Qd k hk]

theorem oLin_agree (c : m.Consistent) (a : Agree m cur cur') (wk wk' : Work) {k : ℕ} (hk : k < m.n_o) :
    m.oLin geo inp wk cur k = m.oLin geo inp wk' cur' k := by
  unfold Model.oLin orificeLin
  rw [a.H _ (c.Juo k hk), a.H _ (c.Jdo k hk), a.Qo k hk]
  exact C11_orifice_no_stale _ _ _ _ _ _ _

theorem wLin_agree (c : m.Consistent) (a : Agree m cur cur') (wk wk' : Work) {k : ℕ} (hk : k < m.n_w) :
    m.wLin inp wk cur k = m.wLin inp wk' cur' k := by
  unfold Model.wLin
  rw [a.H _ (c.Juw k hk), a.H _ (c.Jdw k hk), a.Qw k hk]
  exact C11_weir_no_stale _ _ _ _ _ _ _

theorem pLin_agree (c : m.Consistent) (a : Agree m cur cur') (wk wk' : Work) {k : ℕ} (hk : k < m.n_p) :
    m.pLin inp wk cur k = m.pLin inp wk' cur' k := by
  unfold Model.pLin
  rw [a.H _ (c.Jup k hk), a.H _ (c.Jdp k hk), a.Qp k hk]
  exact C11_pump_no_stale _ _ _ _ _ _ _

theorem ctrls_inflow_congr {C C' : Ctrls ℝ} {H H' : ℕ → ℝ} {M : ℕ} (hn : C.n = C'.n) (hJu : C.Ju = C'.Ju)
    (hJd : C.Jd = C'.Jd) (h : ∀ k, k < C.n → C.alpha k = C'.alpha k ∧ C.beta k = C'.beta k ∧ C.chi k = C'.chi k)
    (hu : ∀ k, k < C.n → C.Ju k < M) (hd : ∀ k, k < C.n → C.Jd k < M)
    (hH : ∀ i, i < M → H i = H' i) (i : ℕ) : C.inflow H i = C'.inflow H' i := by
  unfold Ctrls.inflow Ctrls.Q
  rw [← hn, ← hJu, ← hJd]
  refine Finset.sum_congr rfl fun k hk => ?_
  have hk := Finset.mem_range.mp hk
  obtain ⟨h1, h2, h3⟩ := h k hk
  rw [h1, h2, h3, hH _ (hu k hk), hH _ (hd k hk)]

/-- The balance equation of a superjunction does not depend on the scratch arrays. -/
theorem balanced_agree (c : m.Consistent) (e : CoAgree m.N co co') (wk wk' : Work) (a : Agree m cur cur')
    (ap : Agree m prev prev') (hx : ∀ i, i < m.M → x i = x' i) {i : ℕ} (hi : i < m.M)
    (h : Network.Balanced (m.net geo inp wk cur co) inp.dt prev.H inp.Q_in x i) :
    Network.Balanced (m.net geo inp wk' cur' co') inp.dt prev'.H inp.Q_in x' i := by
  have hl : (m.net geo inp wk cur co).links.inflow x i = (m.net geo inp wk' cur' co').links.inflow x' i := by
    unfold Links.inflow Links.Qu Links.Qd
    refine Finset.sum_congr rfl fun k hk => ?_
    have hk : k < m.ix.NK := Finset.mem_range.mp hk
    simp only [Model.net]
    rw [endRec_scratch c e wk wk' hk, headCoef_agree c a hk, hx _ (c.Ju k hk), hx _ (c.Jd k hk)]
    rfl
  have hxi : (m.net geo inp wk cur co).links.xiSum i = (m.net geo inp wk' cur' co').links.xiSum i := by
    unfold Links.xiSum
    refine Finset.sum_congr rfl fun k hk => ?_
    have hk : k < m.ix.NK := Finset.mem_range.mp hk
    simp only [Model.net]
    rw [a.H _ (c.Ju k hk), a.H _ (c.Jd k hk)]
    rfl
  have ho := ctrls_inflow_congr (C := (m.net geo inp wk cur co).orifices)
    (C' := (m.net geo inp wk' cur' co').orifices) (M := m.M) rfl rfl rfl
    (fun k hk => by simp only [Model.net]; rw [oLin_agree c a wk wk' hk]; exact ⟨rfl, rfl, rfl⟩)
    c.Juo c.Jdo hx i
  have hw := ctrls_inflow_congr (C := (m.net geo inp wk cur co).weirs)
    (C' := (m.net geo inp wk' cur' co').weirs) (M := m.M) rfl rfl rfl
    (fun k hk => by simp only [Model.net]; rw [wLin_agree c a wk wk' hk]; exact ⟨rfl, rfl, rfl⟩)
    c.Juw c.Jdw hx i
  have hp := ctrls_inflow_congr (C := (m.net geo inp wk cur co).pumps)
    (C' := (m.net geo inp wk' cur' co').pumps) (M := m.M) rfl rfl rfl
    (fun k hk => by simp only [Model.net]; rw [pLin_agree c a wk wk' hk]; exact ⟨rfl, rfl, rfl⟩)
    c.Jup c.Jdp hx i
  unfold Network.Balanced at h ⊢
  rw [← hl, ← hxi, ← ho, ← hw, ← hp, ← hx i hi, ← ap.H i hi]
  exact h

/-- **C11/C41 (one pass).** Whether `x` solves the head equations of a pass does not depend on the
scratch arrays, only on the entries of the hydraulic state. -/
theorem C11_pass_no_stale (c : m.Consistent) (wk wk' : Work) (cw : CleanWork m wk.mats)
    (cw' : CleanWork m wk'.mats) (a : Agree m cur cur') (ap : Agree m prev prev')
    (p : Pass m geo inp wk prev cur co x) : Pass m geo inp wk' prev' cur' co x := by
  refine ⟨?_, ?_⟩
  · have := p.coefs
    have h1 : m.linkIn geo inp prev cur = m.linkIn geo inp prev' cur' := by
      unfold Model.linkIn; rw [ap.Q, a.Q]
    have h2 : m.nodeIn geo inp prev = m.nodeIn geo inp prev' := by
      unfold Model.nodeIn; rw [ap.h]
    rw [← h1, ← h2]; exact this
  · have h := p.solve
    unfold Model.lhs Model.rhs Model.mats at h ⊢
    have e1 := solves_iff (m.net geo inp wk cur co) inp.dt wk.mats cw.mats (wired c) prev.H inp.Q_in
      (inp.H_bc.getD cur.H) x
    have e2 := solves_iff (m.net geo inp wk' cur' co) inp.dt wk'.mats cw'.mats (wired c) prev'.H inp.Q_in
      (inp.H_bc.getD cur'.H) x
    refine e2.mpr fun i hi => ?_
    obtain ⟨hb, hf⟩ := e1.mp h i hi
    refine ⟨fun hbc => ?_, fun hbc => ?_⟩
    · rw [hb hbc]
      cases inp.H_bc with
      | none => exact a.H i hi
      | some f => rfl
    · exact balanced_agree c ⟨fun _ _ => rfl, fun _ _ => rfl, fun _ _ => rfl, fun _ _ => rfl,
        fun _ _ => rfl, rfl, rfl⟩ wk wk' a ap (fun _ _ => rfl) hi (hf hbc)

/-- Entries outside all superlinks are not touched by the internal solve. -/
theorem internals_frame (f : Fwd ℝ) (bw : Bwd ℝ) (mn : ℝ) (mx hu hd : ℕ → ℝ) (i_1k I_1k nk : ℕ → ℕ)
    (NK : ℕ) (back : Bool) (s : HQ ℝ) (pos : ∀ k, k < NK → 1 ≤ nk k) :
    let s' := numbaSolveInternals f bw mn mx hu hd i_1k I_1k nk NK back s
    (∀ i, (∀ k, k < NK → ∀ j, j < nk k → i ≠ i_1k k + j) → s'.Q i = s.Q i) ∧
    (∀ I, (∀ k, k < NK → ∀ j, j ≤ nk k → I ≠ I_1k k + j) → s'.h I = s.h I) := by
  have key := forRange_inv
    (fun (n : ℕ) (s' : HQ ℝ) => n ≤ NK →
      (∀ i, (∀ k, k < NK → ∀ j, j < nk k → i ≠ i_1k k + j) → s'.Q i = s.Q i) ∧
      (∀ I, (∀ k, k < NK → ∀ j, j ≤ nk k → I ≠ I_1k k + j) → s'.h I = s.h I))
    NK (fun k s => internalsSuperlink f bw mn (mx k) (hu k) (hd k) (nk k) (I_1k k) (i_1k k) back s) s
    (fun _ => ⟨fun _ _ => rfl, fun _ _ => rfl⟩) ?_
  · exact key le_rfl
  · intro k hk s1 ih _
    obtain ⟨ihQ, ihh⟩ := ih (by omega)
    obtain ⟨-, hQ, hh⟩ := internalsSuperlink_spec f bw mn (mx k) (hu k) (hd k) (nk k) (I_1k k)
      (i_1k k) back s1 (pos k hk)
    exact ⟨fun i hi => (hQ i (hi k hk)).trans (ihQ i hi), fun I hI => (hh I (hI k hk)).trans (ihh I hI)⟩

/-- **C41 (one pass).** The state after a pass agrees entry by entry, whatever the scratch arrays held. -/
theorem advance_agree (c : m.Consistent) (e : CoAgree m.N co co') (wk wk' : Work) (a : Agree m cur cur')
    (hx : ∀ i, i < m.M → x i = x' i) :
    Agree m (m.advance geo inp wk cur co x) (m.advance geo inp wk' cur' co' x') := by
  have hH : ∀ i, i < m.M → clipHead m.z_inv m.max_depth x i = clipHead m.z_inv m.max_depth x' i := by
    intro i hi; unfold clipHead; rw [hx i hi]
  have hrel : ∀ k, k < m.ix.NK → _ := fun k hk => numbaSolveInternals_spec (m.fwd wk co) (m.bwd wk co)
    m.min_depth m.max_depth_k
    (fun k => huk (m.endRec wk co k) (m.headCoef geo cur k) (clipHead m.z_inv m.max_depth x (m.Ju k))
      (clipHead m.z_inv m.max_depth x (m.Jd k)))
    (fun k => hdk (m.endRec wk co k) (m.headCoef geo cur k) (clipHead m.z_inv m.max_depth x (m.Ju k))
      (clipHead m.z_inv m.max_depth x (m.Jd k)))
    m.ix.i_1k m.ix.I_1k m.ix.nk m.ix.NK m.back ⟨cur.h, cur.Q⟩ c.layout k hk
  have hrel' : ∀ k, k < m.ix.NK → _ := fun k hk => numbaSolveInternals_spec (m.fwd wk' co')
    (m.bwd wk' co') m.min_depth m.max_depth_k
    (fun k => huk (m.endRec wk' co' k) (m.headCoef geo cur' k) (clipHead m.z_inv m.max_depth x' (m.Ju k))
      (clipHead m.z_inv m.max_depth x' (m.Jd k)))
    (fun k => hdk (m.endRec wk' co' k) (m.headCoef geo cur' k) (clipHead m.z_inv m.max_depth x' (m.Ju k))
      (clipHead m.z_inv m.max_depth x' (m.Jd k)))
    m.ix.i_1k m.ix.I_1k m.ix.nk m.ix.NK m.back ⟨cur'.h, cur'.Q⟩ c.layout k hk
  have fr := internals_frame (m.fwd wk co) (m.bwd wk co) m.min_depth m.max_depth_k
    (fun k => huk (m.endRec wk co k) (m.headCoef geo cur k) (clipHead m.z_inv m.max_depth x (m.Ju k))
      (clipHead m.z_inv m.max_depth x (m.Jd k)))
    (fun k => hdk (m.endRec wk co k) (m.headCoef geo cur k) (clipHead m.z_inv m.max_depth x (m.Ju k))
      (clipHead m.z_inv m.max_depth x (m.Jd k)))
    m.ix.i_1k m.ix.I_1k m.ix.nk m.ix.NK m.back ⟨cur.h, cur.Q⟩ c.layout.pos
  have fr' := internals_frame (m.fwd wk' co') (m.bwd wk' co') m.min_depth m.max_depth_k
    (fun k => huk (m.endRec wk' co' k) (m.headCoef geo cur' k) (clipHead m.z_inv m.max_depth x' (m.Ju k))
      (clipHead m.z_inv m.max_depth x' (m.Jd k)))
    (fun k => hdk (m.endRec wk' co' k) (m.headCoef geo cur' k) (clipHead m.z_inv m.max_depth x' (m.Ju k))
      (clipHead m.z_inv m.max_depth x' (m.Jd k)))
    m.ix.i_1k m.ix.I_1k m.ix.nk m.ix.NK m.back ⟨cur'.h, cur'.Q⟩ c.layout.pos
  have inn : ∀ k, k < m.ix.NK → _ := fun k hk => by
    have R := hrel k hk
    have R' := hrel' k hk
    obtain ⟨F, B⟩ := sweeps_scratch c e wk wk' hk
    simp only [endRec_scratch c e wk wk' hk, headCoef_agree (geo := geo) c a hk, hH _ (c.Ju k hk),
      hH _ (c.Jd k hk)] at R
    exact intRel_unique (c.layout.pos k hk) F B R R'
  refine ⟨hH, ?_, ?_, fun k hk => ?_, fun k hk => ?_, fun k hk => ?_, fun k hk => ?_, fun k hk => ?_⟩
  · funext I
    have : ∀ v v' : ℝ, v = v' → (if v < m.min_depth then m.min_depth else v)
        = (if v' < m.min_depth then m.min_depth else v') := by intro v v' h; rw [h]
    refine this _ _ ?_
    by_cases hI : ∀ k, k < m.ix.NK → ∀ j, j ≤ m.ix.nk k → I ≠ m.ix.I_1k k + j
    · exact (fr.2 I hI).trans ((congrFun a.h I).trans (fr'.2 I hI).symm)
    · push Not at hI
      obtain ⟨k, hk, j, hj, rfl⟩ := hI
      exact (inn k hk).1 j hj
  · funext i
    by_cases hI : ∀ k, k < m.ix.NK → ∀ j, j < m.ix.nk k → i ≠ m.ix.i_1k k + j
    · exact (fr.1 i hI).trans ((congrFun a.Q i).trans (fr'.1 i hI).symm)
    · push Not at hI
      obtain ⟨k, hk, j, hj, rfl⟩ := hI
      exact (inn k hk).2 j hj
  all_goals simp only [Model.advance]
  · rw [endRec_scratch c e wk wk' hk, headCoef_agree c a hk, hH _ (c.Ju k hk), hH _ (c.Jd k hk)]
  · rw [endRec_scratch c e wk wk' hk, headCoef_agree c a hk, hH _ (c.Ju k hk), hH _ (c.Jd k hk)]
  · rw [hH _ (c.Juo k hk), hH _ (c.Jdo k hk)]
  · rw [hH _ (c.Juw k hk), hH _ (c.Jdw k hk)]
  · rw [hH _ (c.Jup k hk), hH _ (c.Jdp k hk)]

/-! ### Sequences of passes -/

/-- One call with its data: whether the state is saved first, the geometry as a function of the current
state, and the inputs. -/
structure Req where
  first : Bool
  G : Hyd → Geo
  inp : Inputs

/-- A call performed by the code for the request `q`. -/
def Performs (m : Model) (q : Req) (s s' : State) : Prop :=
  ∃ co x, Pass m (q.G s.cur) q.inp s.wk (if q.first then s.cur else s.saved) s.cur co x ∧
    s' = ⟨if q.first then s.cur else s.saved, m.advance (q.G s.cur) q.inp s.wk s.cur co x,
      m.work (q.G s.cur) q.inp s.wk s.cur co⟩

/-- A sequence of calls. -/
def Run (m : Model) : List Req → State → State → Prop
  | [], s, s' => s' = s
  | q :: rest, s, s' => ∃ s1, Performs m q s s1 ∧ Run m rest s1 s'

/-- The requests are physical in every state, and the geometry is computed from existing entries only. -/
structure GoodReq (m : Model) (q : Req) : Prop where
  phys : ∀ s, PhysicalStep m (q.G s) q.inp
  ext : ∀ s s', Agree m s s' → q.G s = q.G s'

theorem coAgree_of {m : Model} {geo : Geo} {inp : Inputs} {prev cur : Hyd} {co co' : Coef ℝ}
    (h : StepCoefs m.g m.N (m.linkIn geo inp prev cur) (m.nodeIn geo inp prev) m.nix co)
    (h' : StepCoefs m.g m.N (m.linkIn geo inp prev cur) (m.nodeIn geo inp prev) m.nix co') :
    CoAgree m.N co co' := by
  obtain ⟨hl, hE, hD⟩ := h
  obtain ⟨hl', hE', hD'⟩ := h'
  refine ⟨fun i hi => (hl i hi).1.trans (hl' i hi).1.symm, fun i hi => ?_,
    fun i hi => (hl i hi).2.2.1.trans (hl' i hi).2.2.1.symm,
    fun i hi => (hl i hi).2.2.2.1.trans (hl' i hi).2.2.2.1.symm,
    fun i hi => (hl i hi).2.2.2.2.trans (hl' i hi).2.2.2.2.symm,
    funext fun I => (hE I).trans (hE' I).symm, funext fun I => (hD I).trans (hD' I).symm⟩
  have := (hl i hi).2.1.symm.trans (hl' i hi).2.1
  exact Except.ok.inj this

/-- **C41, C11 (any history).** Take two objects of the same model whose hydraulic states (current and
saved) agree, with arbitrary different histories in all other arrays. The same sequence of calls leads
both to agreeing states. In particular loading a saved state and repeating steps reproduces the results:
nothing outside the saved arrays influences them. -/
theorem C41_history_free (c : m.Consistent) (l : List Req) (hl : ∀ q ∈ l, GoodReq m q)
    {s s' a a' : State} (cw : CleanWork m s.wk.mats) (cw' : CleanWork m s'.wk.mats)
    (hs : Agree m s.cur s'.cur) (hp : Agree m s.saved s'.saved) (r : Run m l s a) (r' : Run m l s' a') :
    Agree m a.cur a'.cur ∧ Agree m a.saved a'.saved := by
  induction l generalizing s s' with
  | nil => cases r; cases r'; exact ⟨hs, hp⟩
  | cons q rest ih =>
    obtain ⟨s1, ⟨co, x, p, rfl⟩, r⟩ := r
    obtain ⟨s1', ⟨co', x', p', rfl⟩, r'⟩ := r'
    have gq := hl q (by simp)
    have hG := gq.ext _ _ hs
    rw [← hG] at p' r'
    have hpp : Agree m (if q.first then s.cur else s.saved) (if q.first then s'.cur else s'.saved) := by
      cases q.first
      · exact hp
      · exact hs
    have p1 := C11_pass_no_stale c s'.wk s.wk cw' cw hs.symm hpp.symm p'
    have e := coAgree_of p.coefs p1.coefs
    have hx : ∀ i, i < m.M → x i = x' i := by
      have p2 : Solves m.M (m.lhs (q.G s.cur) q.inp s.wk s.cur co)
          (m.rhs (q.G s.cur) q.inp s.wk (if q.first then s.cur else s.saved) s.cur co) x' := by
        have h := p1.solve
        unfold Model.lhs Model.rhs Model.mats at h ⊢
        have e1 := solves_iff (m.net (q.G s.cur) q.inp s.wk s.cur co) q.inp.dt s.wk.mats cw.mats (wired c)
          (if q.first then s.cur else s.saved).H q.inp.Q_in (q.inp.H_bc.getD s.cur.H) x'
        have e2 := solves_iff (m.net (q.G s.cur) q.inp s.wk s.cur co') q.inp.dt s.wk.mats cw.mats (wired c)
          (if q.first then s.cur else s.saved).H q.inp.Q_in (q.inp.H_bc.getD s.cur.H) x'
        refine e1.mpr fun i hi => ?_
        obtain ⟨hb, hf⟩ := e2.mp h i hi
        exact ⟨hb, fun hbc => balanced_agree c ⟨fun i hi => (e.a i hi).symm, fun i hi => (e.b i hi).symm,
          fun i hi => (e.c i hi).symm, fun i hi => (e.P i hi).symm, fun i hi => (e.A i hi).symm, e.E.symm,
          e.D.symm⟩ s.wk s.wk (Agree.refl _) (Agree.refl _) (fun _ _ => rfl) hi (hf hbc)⟩
      exact (C06_step c (gq.phys s.cur) cw p.coefs _).2 x x' p.solve p2
    exact ih (fun q' h => hl q' (List.mem_cons_of_mem _ h)) cw.next cw'.next
      (advance_agree c e s.wk s'.wk hs hx) hpp r r'

/-- Runs of any length exist for the example network, so the theorem is not vacuous. -/
example (n : ℕ) (s : State) (cw : CleanWork (exModel false) s.wk.mats) :
    (∀ q ∈ List.replicate n (⟨true, fun _ => exGeo, exInp⟩ : Req), GoodReq (exModel false) q) ∧
    ∃ a, Run (exModel false) (List.replicate n ⟨true, fun _ => exGeo, exInp⟩) s a := by
  constructor
  · intro q hq
    obtain rfl := List.eq_of_mem_replicate hq
    exact ⟨fun _ => exPhysical false, fun _ _ _ => rfl⟩
  · induction n generalizing s with
    | zero => exact ⟨s, rfl⟩
    | succ n ih =>
      obtain ⟨co, x, p⟩ := C06_step_exists (prev := s.cur) (cur := s.cur) (exConsistent false)
        (exPhysical false) cw (fun _ _ => Or.inl rfl)
      obtain ⟨a, ha⟩ := ih ⟨s.cur, (exModel false).advance exGeo exInp s.wk s.cur co x,
        (exModel false).work exGeo exInp s.wk s.cur co⟩ cw.next
      exact ⟨a, _, ⟨co, x, p, rfl⟩, ha⟩

end Pipedream.Step
