import Verif.WholeProps
import Verif.RetryProps

/-!
# C167: a control that is kept shut might as well not be there

A network whose last orifices, weirs and pumps are kept shut (opening 0, pump signal 0, weir with its gate
raised above the water) is compared with the network without them. Rows of a table may be listed in any
order (C108), so "the last ones" is no restriction.
-/

namespace Pipedream.Step

open Pipedream.Sweep Pipedream.Link Pipedream.Superlink Pipedream.Control Pipedream.Network
open Pipedream.Geometry Pipedream.Interp

/-! ### Specification -/

/-- The network with only the first `a` orifices, `b` weirs and `c` pumps. -/
def Model.keep (m : Model) (a b c : ℕ) : Model := { m with n_o := a, n_w := b, n_p := c }

/-- Two states agree, up to the flows of the removed controls. -/
structure AgreeState (a b c : ℕ) (s s' : Hyd) : Prop where
  H : s'.H = s.H
  h : s'.h = s.h
  Q : s'.Q = s.Q
  Qu : s'.Qu = s.Qu
  Qd : s'.Qd = s.Qd
  Qo : ∀ k, k < a → s'.Qo k = s.Qo k
  Qw : ∀ k, k < b → s'.Qw k = s.Qw k
  Qp : ∀ k, k < c → s'.Qp k = s.Qp k

/-- Two objects agree, up to what belongs to the removed controls: saved and current state, end switches,
orifice areas, and the scratch arrays other than the matrices. -/
structure AgreeObj (a b c : ℕ) (o o' : Obj) : Prop where
  saved : AgreeState a b c o.saved o'.saved
  cur : AgreeState a b c o.cur o'.cur
  fw : o'.wk.f = o.wk.f
  bw : o'.wk.b = o.wk.b
  lo : ∀ k, k < a → o'.wk.lo k = o.wk.lo k
  lw : ∀ k, k < b → o'.wk.lw k = o.wk.lw k
  lp : ∀ k, k < c → o'.wk.lp k = o.wk.lp k
  thu : o'.hid.thu = o.hid.thu
  thd : o'.hid.thd = o.hid.thd
  Ao : ∀ k, k < a → o'.hid.Ao k = o.hid.Ao k

/-- The orifices from `a` on and the pumps from `c` on are shut by the signals `inp`. -/
structure ShutBy (m : Model) (P : Plan) (a c : ℕ) (inp : Inputs) : Prop where
  u_o : ∀ k, a ≤ k → k < m.n_o → inp.u_o k = 0
  shape : ∀ k, a ≤ k → k < m.n_o → P.oShape k ≠ .circular ∧ P.oShape k ≠ .elliptical ∧ P.oShape k ≠ .floodplain
  u_p : ∀ k, c ≤ k → k < m.n_p → inp.u_p k = 0

/-- The water stands nowhere above the gates of the weirs from `b` on. -/
def BelowGates (m : Model) (b : ℕ) (inp : Inputs) (s : Hyd) : Prop :=
  ∀ k, b ≤ k → k < m.n_w → s.H (m.Juw k) ≤ (m.weir k).crest (inp.u_w k) ∧
    s.H (m.Jdw k) ≤ (m.weir k).crest (inp.u_w k)

/-! ### Inflow from controls -/

theorem inflow_keep {C C' : Ctrls ℝ} (hn : C'.n ≤ C.n) (Ju : C'.Ju = C.Ju) (Jd : C'.Jd = C.Jd) (H : ℕ → ℝ)
    (e : ∀ k, k < C'.n → C'.Q H k = C.Q H k) (z : ∀ k, C'.n ≤ k → k < C.n → C.Q H k = 0) (i : ℕ) :
    C'.inflow H i = C.inflow H i := by
  unfold Ctrls.inflow
  rw [Ju, Jd]
  rw [Finset.sum_congr rfl (fun k hk => by rw [e k (Finset.mem_range.mp hk)])]
  refine Finset.sum_subset (Finset.range_mono hn) fun k hk hk' => ?_
  rw [z k (by simpa using hk') (Finset.mem_range.mp hk)]
  simp

/-! ### One call -/

variable {m : Model} {P : Plan} {a b c : ℕ} {inp : Inputs}

theorem keepConsistent (cs : m.Consistent) (ha : a ≤ m.n_o) (hb : b ≤ m.n_w) (hc : c ≤ m.n_p) :
    (m.keep a b c).Consistent :=
  ⟨cs.layout, cs.inN, cs.nodes, cs.Ju, cs.Jd, fun k hk => cs.Juo k (lt_of_lt_of_le hk ha),
    fun k hk => cs.Jdo k (lt_of_lt_of_le hk ha), fun k hk => cs.Juw k (lt_of_lt_of_le hk hb),
    fun k hk => cs.Jdw k (lt_of_lt_of_le hk hb), fun k hk => cs.Jup k (lt_of_lt_of_le hk hc),
    fun k hk => cs.Jdp k (lt_of_lt_of_le hk hc)⟩

/-- The head equations of the two networks have the same solutions. -/
theorem solves_keep (cs : m.Consistent) (ha : a ≤ m.n_o) (hb : b ≤ m.n_w) (hc : c ≤ m.n_p)
    {G G' : Geo} {wk wk' : Work} {prev cur prev' cur' : Hyd} {co : Coef ℝ} {x : ℕ → ℝ}
    (cw : CleanWork m wk.mats) (cw' : CleanWork (m.keep a b c) wk'.mats)
    (hN : ((m.keep a b c).net G' inp wk' cur' co).links = (m.net G inp wk cur co).links)
    (hAs : G'.As = G.As) (hp : prev'.H = prev.H) (hcur : cur'.H = cur.H)
    (eo : ∀ k, k < a → (m.keep a b c).oLin G' inp wk' cur' k = m.oLin G inp wk cur k)
    (ew : ∀ k, k < b → (m.keep a b c).wLin inp wk' cur' k = m.wLin inp wk cur k)
    (ep : ∀ k, k < c → (m.keep a b c).pLin inp wk' cur' k = m.pLin inp wk cur k)
    (zo : ∀ k, a ≤ k → k < m.n_o → ∀ u v, (m.oLin G inp wk cur k).eval u v = 0)
    (zw : ∀ k, b ≤ k → k < m.n_w → ∀ u v, (m.wLin inp wk cur k).eval u v = 0)
    (zp : ∀ k, c ≤ k → k < m.n_p → ∀ u v, (m.pLin inp wk cur k).eval u v = 0) :
    Solves m.M ((m.keep a b c).lhs G' inp wk' cur' co) ((m.keep a b c).rhs G' inp wk' prev' cur' co) x ↔
      Solves m.M (m.lhs G inp wk cur co) (m.rhs G inp wk prev cur co) x := by
  have l := solves_iff (m.net G inp wk cur co) inp.dt wk.mats cw.mats (wired cs) prev.H inp.Q_in
    (inp.H_bc.getD cur.H) x
  have l' := solves_iff ((m.keep a b c).net G' inp wk' cur' co) inp.dt wk'.mats cw'.mats
    (wired (keepConsistent cs ha hb hc)) prev'.H inp.Q_in (inp.H_bc.getD cur'.H) x
  refine l'.trans (Iff.trans ?_ l.symm)
  have io : ∀ i, ((m.keep a b c).net G' inp wk' cur' co).orifices.inflow x i =
      (m.net G inp wk cur co).orifices.inflow x i :=
    inflow_keep (C := (m.net G inp wk cur co).orifices)
      (C' := ((m.keep a b c).net G' inp wk' cur' co).orifices) ha rfl rfl x (fun k hk => by
      have := eo k hk
      simp only [Ctrls.Q, Model.net]; rw [this]; rfl) (fun k h1 h2 => zo k h1 h2 _ _)
  have iw : ∀ i, ((m.keep a b c).net G' inp wk' cur' co).weirs.inflow x i =
      (m.net G inp wk cur co).weirs.inflow x i :=
    inflow_keep (C := (m.net G inp wk cur co).weirs)
      (C' := ((m.keep a b c).net G' inp wk' cur' co).weirs) hb rfl rfl x (fun k hk => by
      have := ew k hk
      simp only [Ctrls.Q, Model.net]; rw [this]; rfl) (fun k h1 h2 => zw k h1 h2 _ _)
  have ip : ∀ i, ((m.keep a b c).net G' inp wk' cur' co).pumps.inflow x i =
      (m.net G inp wk cur co).pumps.inflow x i :=
    inflow_keep (C := (m.net G inp wk cur co).pumps)
      (C' := ((m.keep a b c).net G' inp wk' cur' co).pumps) hc rfl rfl x (fun k hk => by
      have := ep k hk
      simp only [Ctrls.Q, Model.net]; rw [this]; rfl) (fun k h1 h2 => zp k h1 h2 _ _)
  refine forall_congr' fun i => forall_congr' fun hi => ?_
  refine and_congr ?_ ?_
  · rw [hcur]; exact Iff.rfl
  · refine imp_congr Iff.rfl ?_
    unfold Network.Balanced
    rw [io, iw, ip, hN, hp]
    simp only [Model.net, hAs]

/-- The areas of shut orifices are zero. -/
theorem shut_area (sb : ShutBy m P a c inp) {Ao : ℕ → ℝ} {hid : Hidden} {s : Hyd}
    (hA : ∀ k, k < m.n_o → orificeArea (hid.Ao k) (P.oShape k) (P.oGP k) (m.orificeDepth s k) (inp.u_o k) = .ok (Ao k))
    (k : ℕ) (h1 : a ≤ k) (h2 : k < m.n_o) : Ao k = 0 := by
  have := hA k h2
  obtain ⟨s1, s2, s3⟩ := sb.shape k h1 h2
  rw [sb.u_o k h1 h2, C22_closed_orifice_area_partial _ _ _ _ s1 s2 s3] at this
  exact (Except.ok.inj this).symm

/-- What the two networks compute in a call from agreeing objects with orifice areas `Ao`. -/
theorem pass_keep (cs : m.Consistent) (ha : a ≤ m.n_o) (hb : b ≤ m.n_w) (hc : c ≤ m.n_p)
    (sb : ShutBy m P a c inp) {o o' : Obj} (bg : BelowGates m b inp o.cur)
    (cw : CleanWork m o.wk.mats) (cw' : CleanWork (m.keep a b c) o'.wk.mats) (so : AgreeObj a b c o o') (first : Bool)
    {Ao Ao' : ℕ → ℝ} (eA : ∀ k, k < a → Ao' k = Ao k) (zA : ∀ k, a ≤ k → k < m.n_o → Ao k = 0) (co : Coef ℝ)
    (x : ℕ → ℝ) :
    (Pass (m.keep a b c) ((m.keep a b c).geoOf P o'.hid Ao' o'.cur) inp o'.wk (if first then o'.cur else o'.saved)
        o'.cur co x ↔
      Pass m (m.geoOf P o.hid Ao o.cur) inp o.wk (if first then o.cur else o.saved) o.cur co x) ∧
    AgreeObj a b c
      ⟨if first then o.cur else o.saved, m.advance (m.geoOf P o.hid Ao o.cur) inp o.wk o.cur co x,
        m.work (m.geoOf P o.hid Ao o.cur) inp o.wk o.cur co, m.nextHidden Ao o.cur⟩
      ⟨if first then o'.cur else o'.saved,
        (m.keep a b c).advance ((m.keep a b c).geoOf P o'.hid Ao' o'.cur) inp o'.wk o'.cur co x,
        (m.keep a b c).work ((m.keep a b c).geoOf P o'.hid Ao' o'.cur) inp o'.wk o'.cur co,
        (m.keep a b c).nextHidden Ao' o'.cur⟩ := by
  obtain ⟨⟨sH, sh, sQ, sQu, sQd, sQo, sQw, sQp⟩, ⟨cH, ch, cQ, cQu, cQd, cQo, cQw, cQp⟩, ⟨mats, wf, wb, lo, lw, lp⟩,
    ⟨thu, thd, oA⟩⟩ := o
  obtain ⟨⟨sH', sh', sQ', sQu', sQd', sQo', sQw', sQp'⟩, ⟨cH', ch', cQ', cQu', cQd', cQo', cQw', cQp'⟩,
    ⟨mats', wf', wb', lo', lw', lp'⟩, ⟨thu', thd', oA'⟩⟩ := o'
  obtain ⟨⟨e1, e2, e3, e4, e5, e6, e7, e8⟩, ⟨f1, f2, f3, f4, f5, f6, f7, f8⟩, g1, g2, g3, g4, g5, k1, k2, k3⟩ := so
  simp only at e1 e2 e3 e4 e5 e6 e7 e8 f1 f2 f3 f4 f5 f6 f7 f8 g1 g2 g3 g4 g5 k1 k2 k3
  subst e1 e2 e3 e4 e5 f1 f2 f3 f4 f5 g1 g2 k1 k2
  have aw : ∀ k, k < a → upTo a Ao' k = upTo m.n_o Ao k := fun k hk => by
    simp only [upTo, hk, lt_of_lt_of_le hk ha, if_true]; exact eA k hk
  have az : ∀ k, a ≤ k → k < m.n_o → upTo m.n_o Ao k = 0 := fun k h1 h2 => by
    simp only [upTo, h2, if_true]; exact zA k h1 h2
  have eo : ∀ k, k < a → (m.keep a b c).oLin ((m.keep a b c).geoOf P ⟨thu', thd', oA'⟩ Ao'
      ⟨cH', ch', cQ', cQu', cQd', cQo', cQw', cQp'⟩) inp ⟨mats', wf', wb', lo', lw', lp'⟩
      ⟨cH', ch', cQ', cQu', cQd', cQo', cQw', cQp'⟩ k =
      m.oLin (m.geoOf P ⟨thu', thd', oA⟩ Ao ⟨cH', ch', cQ', cQu', cQd', cQo, cQw, cQp⟩) inp
        ⟨mats, wf', wb', lo, lw, lp⟩ ⟨cH', ch', cQ', cQu', cQd', cQo, cQw, cQp⟩ k := fun k hk => by
    simp only [Model.oLin, Model.keep, Model.geoOf]
    rw [f6 k hk, g3 k hk, aw k hk]
  have ew : ∀ k, k < b → (m.keep a b c).wLin inp ⟨mats', wf', wb', lo', lw', lp'⟩
      ⟨cH', ch', cQ', cQu', cQd', cQo', cQw', cQp'⟩ k =
      m.wLin inp ⟨mats, wf', wb', lo, lw, lp⟩ ⟨cH', ch', cQ', cQu', cQd', cQo, cQw, cQp⟩ k := fun k hk => by
    simp only [Model.wLin, Model.keep]
    rw [f7 k hk, g4 k hk]
  have ep : ∀ k, k < c → (m.keep a b c).pLin inp ⟨mats', wf', wb', lo', lw', lp'⟩
      ⟨cH', ch', cQ', cQu', cQd', cQo', cQw', cQp'⟩ k =
      m.pLin inp ⟨mats, wf', wb', lo, lw, lp⟩ ⟨cH', ch', cQ', cQu', cQd', cQo, cQw, cQp⟩ k := fun k hk => by
    simp only [Model.pLin, Model.keep]
    rw [f8 k hk, g5 k hk]
  refine ⟨?_, ?_⟩
  · have hs := solves_keep (x := x) (co := co) (prev := if first then ⟨cH', ch', cQ', cQu', cQd', cQo, cQw, cQp⟩ else
        ⟨sH', sh', sQ', sQu', sQd', sQo, sQw, sQp⟩) (prev' := if first then ⟨cH', ch', cQ', cQu', cQd', cQo', cQw', cQp'⟩ else
        ⟨sH', sh', sQ', sQu', sQd', sQo', sQw', sQp'⟩) cs ha hb hc cw cw' (by rfl) (by rfl) (by cases first <;> rfl) (by rfl) eo ew ep
        (fun k h1 h2 u v => by
          simp only [Model.oLin, Model.geoOf]
          rw [az k h1 h2]
          exact (C22_orifice_closed _ _ _ _ _ _ _ 0 0 1 _).2 u v)
        (fun k h1 h2 u v => by
          have := (C22_weir_dry (lw k) (cQw k) _ _ (inp.u_w k) (m.weir k) (bg k h1 h2).1 (bg k h1 h2).2).2
          simp only [Model.wLin]
          rw [this]; simp [Lin.eval])
        (fun k h1 h2 u v => by
          simp only [Model.pLin]
          rw [sb.u_p k h1 h2]
          exact pumpLin_off _ _ _ _ _ _ _)
    refine ⟨fun p => ⟨?_, hs.1 p.solve⟩, fun p => ⟨?_, hs.2 p.solve⟩⟩
    · have := p.coefs
      cases first <;> exact this
    · have := p.coefs
      cases first <;> exact this
  · refine ⟨?_, ⟨rfl, rfl, rfl, rfl, rfl, fun k hk => ?_, fun k hk => rfl, fun k hk => rfl⟩, rfl, rfl, eo, ew, ep, rfl, rfl,
      aw⟩
    · cases first
      · exact ⟨rfl, rfl, rfl, rfl, rfl, e6, e7, e8⟩
      · exact ⟨rfl, rfl, rfl, rfl, rfl, f6, f7, f8⟩
    · simp only [Model.advance, Model.geoOf, Model.keep]
      rw [aw k hk]

theorem Calls1.clean {first : Bool} {o o1 : Obj} (cw : CleanWork m o.wk.mats) (h : Calls1 m P first inp o o1) :
    CleanWork m o1.wk.mats := by
  obtain ⟨Ao, co, x, -, -, rfl⟩ := h
  exact cw.next

/-- **C167 (one call).** Let the orifices from `a` on and the pumps from `c` on be shut, and let the water
stand nowhere above the gates of the weirs from `b` on. From agreeing objects, every call the network can
make is a call the network without these controls can make, and conversely; the results agree again: same
heads, depths, flows in pipes and remaining controls, same end switches. -/
theorem C167_call (cs : m.Consistent) (ha : a ≤ m.n_o) (hb : b ≤ m.n_w) (hc : c ≤ m.n_p)
    (sb : ShutBy m P a c inp) {o o' : Obj} (bg : BelowGates m b inp o.cur)
    (cw : CleanWork m o.wk.mats) (cw' : CleanWork (m.keep a b c) o'.wk.mats) (so : AgreeObj a b c o o')
    (first : Bool) :
    (∀ o1, Calls1 m P first inp o o1 →
      ∃ o1', Calls1 (m.keep a b c) P first inp o' o1' ∧ AgreeObj a b c o1 o1') ∧
    (∀ o1', Calls1 (m.keep a b c) P first inp o' o1' →
      ∃ o1, Calls1 m P first inp o o1 ∧ AgreeObj a b c o1 o1') := by
  have dep : ∀ k, (m.keep a b c).orificeDepth o'.cur k = m.orificeDepth o.cur k := fun k => by
    simp only [Model.orificeDepth, Model.keep, so.cur.H]
  refine ⟨?_, ?_⟩
  · rintro o1 ⟨Ao, co, x, hA, p, rfl⟩
    obtain ⟨h1, h2⟩ := pass_keep cs ha hb hc sb bg cw cw' so first (Ao := Ao) (Ao' := Ao) (fun _ _ => rfl)
      (shut_area sb hA) co x
    refine ⟨_, ⟨Ao, co, x, fun k hk => ?_, h1.2 p, rfl⟩, h2⟩
    rw [dep, so.Ao k hk]
    exact hA k (lt_of_lt_of_le hk ha)
  · rintro o1' ⟨Ao', co, x, hA, p, rfl⟩
    obtain ⟨h1, h2⟩ := pass_keep cs ha hb hc sb bg cw cw' so first
      (Ao := fun k => if k < a then Ao' k else 0) (Ao' := Ao') (fun k hk => by simp [hk])
      (fun k h1 _ => by simp [not_lt.mpr h1]) co x
    refine ⟨_, ⟨_, co, x, fun k hk => ?_, h1.1 p, rfl⟩, h2⟩
    by_cases hka : k < a
    · have := hA k hka
      rw [dep, so.Ao k hka] at this
      simpa [hka] using this
    · obtain ⟨s1, s2, s3⟩ := sb.shape k (not_lt.mp hka) hk
      rw [sb.u_o k (not_lt.mp hka) hk, C22_closed_orifice_area_partial _ _ _ _ s1 s2 s3]
      simp [hka]

/-- **C167 (every run).** Through every sequence of calls in which the controls stay shut and the water
stays below the gates of the removed weirs, the network computes what it computes without these controls. -/
theorem C167_run (cs : m.Consistent) (ha : a ≤ m.n_o) (hb : b ≤ m.n_w) (hc : c ≤ m.n_p)
    (l : List (Bool × Inputs)) (sb : ∀ q ∈ l, ShutBy m P a c q.2) {o o' o1 : Obj}
    (bg : ∀ pre q post o2, l = pre ++ q :: post → History m P pre o o2 → BelowGates m b q.2 o2.cur)
    (cw : CleanWork m o.wk.mats) (cw' : CleanWork (m.keep a b c) o'.wk.mats) (so : AgreeObj a b c o o')
    (h : History m P l o o1) : ∃ o1', History (m.keep a b c) P l o' o1' ∧ AgreeObj a b c o1 o1' := by
  induction l generalizing o o' with
  | nil => obtain rfl := h; exact ⟨o', rfl, so⟩
  | cons q rest ih =>
    obtain ⟨o2, h1, h2⟩ := h
    obtain ⟨o2', h1', so'⟩ := (C167_call cs ha hb hc (sb q (by simp)) (bg [] q rest o rfl rfl) cw cw' so q.1).1 _ h1
    obtain ⟨o1', h2', so''⟩ := ih (fun q' hq => sb q' (List.mem_cons_of_mem _ hq))
      (fun pre q' post o3 e hh => bg (q :: pre) q' post o3 (by rw [e]; rfl) ⟨o2, h1, hh⟩)
      (Calls1.clean cw h1) (Calls1.clean cw' h1') so' h2
    exact ⟨o1', ⟨o2', h1', h2'⟩, so''⟩

/-- **C167 (every run, conversely).** Every run of the network without the shut controls is a run of the
network with them, as long as the water stays below the gates of the added weirs. -/
theorem C167_run_back (cs : m.Consistent) (ha : a ≤ m.n_o) (hb : b ≤ m.n_w) (hc : c ≤ m.n_p)
    (l : List (Bool × Inputs)) (sb : ∀ q ∈ l, ShutBy m P a c q.2) {o o' o1' : Obj}
    (bg : ∀ pre q post o2, l = pre ++ q :: post → History (m.keep a b c) P pre o' o2 → BelowGates m b q.2 o2.cur)
    (cw : CleanWork m o.wk.mats) (cw' : CleanWork (m.keep a b c) o'.wk.mats) (so : AgreeObj a b c o o')
    (h : History (m.keep a b c) P l o' o1') : ∃ o1, History m P l o o1 ∧ AgreeObj a b c o1 o1' := by
  induction l generalizing o o' with
  | nil => obtain rfl := h; exact ⟨o, rfl, so⟩
  | cons q rest ih =>
    obtain ⟨o2', h1', h2'⟩ := h
    have bg0 : BelowGates m b q.2 o.cur := fun k k1 k2 => by
      have := bg [] q rest o' rfl rfl k k1 k2
      rwa [so.cur.H] at this
    obtain ⟨o2, h1, so'⟩ := (C167_call cs ha hb hc (sb q (by simp)) bg0 cw cw' so q.1).2 _ h1'
    obtain ⟨o1, h2, so''⟩ := ih (fun q' hq => sb q' (List.mem_cons_of_mem _ hq))
      (fun pre q' post o3 e hh => bg (q :: pre) q' post o3 (by rw [e]; rfl) ⟨o2', h1', hh⟩)
      (Calls1.clean cw h1) (Calls1.clean cw' h1') so' h2'
    exact ⟨o1, ⟨o2, h1, h2⟩, so''⟩

/-- **C167 (reported flows).** After such a call the shut orifices and pumps report no flow; so does a
removed weir whose gate stays above the new water levels. -/
theorem C167_no_flow (sb : ShutBy m P a c inp) {first : Bool} {o o1 : Obj} (h : Calls1 m P first inp o o1) :
    (∀ k, a ≤ k → k < m.n_o → o1.cur.Qo k = 0) ∧
    (∀ k, c ≤ k → k < m.n_p → (m.pump k).c ≠ 0 → o1.cur.Qp k = 0) ∧
    (BelowGates m b inp o1.cur → ∀ k, b ≤ k → k < m.n_w → o1.cur.Qw k = 0) := by
  obtain ⟨Ao, co, x, hA, -, rfl⟩ := h
  refine ⟨fun k h1 h2 => ?_, fun k h1 h2 hc => ?_, fun bg k h1 h2 => ?_⟩
  · simp only [Model.advance, Model.geoOf]
    rw [upTo_of_lt _ h2, shut_area sb hA k h1 h2]
    exact (C22_orifice_closed ⟨0, 0, 0⟩ _ 0 _ _ _ _ _ _ _ _).1
  · simp only [Model.advance, pumpFlow]
    rw [sb.u_p k h1 h2]
    split_ifs
    · rw [zero_div, zero_mul, Real.zero_rpow (by simpa using hc)]
    · rfl
  · exact (C22_weir_dry ⟨0, 0, 0⟩ 0 _ _ _ (m.weir k) (bg k h1 h2).1 (bg k h1 h2).2).1

/-! ### Where it fails -/

/-- **C167 is false for round orifices.** A network with a circular or elliptical orifice that is shut can
make no call at all: computing its area divides by zero. -/
theorem C167_round_raises {k : ℕ} (hk : k < m.n_o) (hu : inp.u_o k = 0)
    (hs : P.oShape k = .circular ∨ P.oShape k = .elliptical) (first : Bool) (o : Obj) :
    ¬ ∃ o1, Calls1 m P first inp o o1 := by
  rintro ⟨o1, Ao, co, x, hA, -⟩
  have := hA k hk
  rw [hu] at this
  rcases hs with hs | hs
  · rw [hs, (C22_closed_orifice_raises _ _ _).1] at this; cases this
  · rw [hs, (C22_closed_orifice_raises _ _ _).2] at this; cases this

/-- **C167 is false for floodplain orifices.** A shut one keeps the area of the table and discharges freely
over its lower edge: with the upstream level above it and the downstream level not, the computed flow is
`Co * Ao * sqrt (2 g (Hu - bottom))`. -/
theorem C167_floodplain_flows (old : ℝ) (p : GP) (h_e g Co Hu Hd : ℝ) (o : Orifice) (hg : 0 < g)
    (h1 : o.z_o + o.z_inv < Hu) (h2 : Hd ≤ o.z_o + o.z_inv) (hA : 0 < old) (hC : 0 < Co) :
    orificeArea old .floodplain p h_e 0 = .ok old ∧
      orificeRaw g old Co Hu Hd 0 o = Co * old * Real.sqrt (2 * g * (Hu - (o.z_o + o.z_inv))) ∧
      0 < orificeRaw g old Co Hu Hd 0 o := by
  have e : orificeRaw g old Co Hu Hd 0 o = Co * old * Real.sqrt (2 * g * (Hu - (o.z_o + o.z_inv))) := by
    have hd : Hu ≥ Hd := by linarith
    have c3 : ¬ (Hd ≥ Hu) := by linarith
    simp only [orificeRaw, orificeCoef, omega, sgn, hd, if_true, one_mul, sub_self, zero_mul, add_zero, zero_add,
      mul_zero, zero_div, gt_iff_lt, h1, not_lt.mpr h2, c3, and_false, false_and, if_false, not_true,
      not_false_eq_true, and_self, or_self, mul_one, sub_zero]
    rw [show 2 * g * Co ^ 2 * old ^ 2 * Hu + 2 * g * Co ^ 2 * old ^ 2 * (-o.z_inv - o.z_o) =
      (Co * old) ^ 2 * (2 * g * (Hu - (o.z_o + o.z_inv))) by ring,
      abs_of_nonneg (mul_nonneg (sq_nonneg _) (mul_nonneg (by positivity) (by linarith))),
      Real.sqrt_mul (sq_nonneg _), Real.sqrt_sq (by positivity)]
  refine ⟨rfl, e, ?_⟩
  rw [e]
  have : 0 < Hu - (o.z_o + o.z_inv) := by linarith
  positivity

/-! ### Non-vacuity -/

/-- The network of `RetryProps` with an orifice, a weir and a pump between its superjunctions. -/
noncomputable def shutModel : Model := { reModel with n_o := 1, n_w := 1, n_p := 1 }

/-- A call of that network with all three shut, from levels below the gate (crest 2, water at 1/2): it can
be made, it agrees with the call of the network without controls, and no control passes water. -/
example : ∃ o1 o1', Calls1 shutModel rePlan true (reInp 1) reStart o1 ∧
    Calls1 reModel rePlan true (reInp 1) reStart o1' ∧ AgreeObj 0 0 0 o1 o1' ∧ o1.cur.Qo 0 = 0 ∧ o1.cur.Qp 0 = 0 := by
  have cs : shutModel.Consistent := by
    obtain ⟨c1, c2, c3, c4, c5, -⟩ := reConsistent
    refine ⟨c1, c2, c3, c4, c5, ?_, ?_, ?_, ?_, ?_, ?_⟩ <;> intro k hk <;> simp [shutModel, reModel]
  have sb : ShutBy shutModel rePlan 0 0 (reInp 1) :=
    ⟨fun _ _ _ => rfl, fun _ _ _ => by simp [rePlan], fun _ _ _ => rfl⟩
  have bg : BelowGates shutModel 0 (reInp 1) reStart.cur := by
    intro k _ _
    constructor <;> norm_num [shutModel, reModel, reStart, Weir.crest, reInp]
  have cw : CleanWork shutModel reStart.wk.mats :=
    ⟨⟨fun _ _ _ _ => rfl⟩, ⟨fun _ _ _ _ => rfl, fun _ _ => rfl⟩, ⟨fun _ _ _ _ => rfl, fun _ _ => rfl⟩,
      ⟨fun _ _ _ _ => rfl, fun _ _ => rfl⟩⟩
  have so : AgreeObj 0 0 0 reStart reStart :=
    ⟨⟨rfl, rfl, rfl, rfl, rfl, fun _ _ => rfl, fun _ _ => rfl, fun _ _ => rfl⟩,
      ⟨rfl, rfl, rfl, rfl, rfl, fun _ _ => rfl, fun _ _ => rfl, fun _ _ => rfl⟩, rfl, rfl, fun _ _ => rfl,
      fun _ _ => rfl, fun _ _ => rfl, rfl, rfl, fun _ _ => rfl⟩
  obtain ⟨o1', h'⟩ := C105_step_succeeds reSound (reGood 1) true reStart_sym.good
  obtain ⟨o1, h, so1⟩ := (C167_call cs (a := 0) (b := 0) (c := 0) (Nat.zero_le _) (Nat.zero_le _) (Nat.zero_le _)
    sb bg cw reStart_sym.good.clean so true).2 o1' h'
  obtain ⟨q1, q2, -⟩ := C167_no_flow (b := 0) sb h
  exact ⟨o1, o1', h, h', so1, q1 0 le_rfl Nat.zero_lt_one, q2 0 le_rfl Nat.zero_lt_one (by norm_num [shutModel, reModel])⟩

/-- A shut floodplain orifice of area 1 with 2 of water above its lower edge. -/
example : 0 < orificeRaw 9.81 1 (2 / 3) 3 0 0 ⟨1, 0, 1, 1, false⟩ :=
  (C167_floodplain_flows 1 ⟨0, 0, 0, 0, 0, 0, 0⟩ 0 9.81 (2 / 3) 3 0 ⟨1, 0, 1, 1, false⟩ (by norm_num) (by norm_num)
    (by norm_num) (by norm_num) (by norm_num)).2.2

end Pipedream.Step
