import Verif.ScratchProps
import Verif.WholeGeometry

/-!
# C105, C41: the step with its own geometry

Every sequence of steps of a sound model succeeds, with uniquely determined results; and what the arrays
that `save_state` does not save do to repeated steps.
-/

namespace Pipedream.Step

open Pipedream.Sweep Pipedream.Link Pipedream.Superlink Pipedream.Control Pipedream.Network
open Pipedream.Geometry Pipedream.Interp

/-- A model the user may reasonably build: consistent tables, positive lengths and roughness, non-negative
losses and areas, Manning or Hazen–Williams friction, usable sections and storages, a positive minimum
depth, no inertial damping. Only static data. -/
structure Sound (m : Model) (P : Plan) : Prop where
  cons : m.Consistent
  g_pos : 0 < m.g
  md_pos : 0 < m.min_depth
  n_pos : ∀ i, i < m.N → 0 < m.n i
  dx_pos : ∀ i, i < m.N → 0 < m.dx i
  C_nonneg : ∀ i, i < m.N → 0 ≤ m.C i
  AS_nonneg : ∀ I, 0 ≤ m.A_S I
  dxu : ∀ k, k < m.ix.NK → 0 ≤ m.dx_uk k
  dxd : ∀ k, k < m.ix.NK → 0 ≤ m.dx_dk k
  Cu : ∀ k, k < m.ix.NK → 0 ≤ m.C_uk k
  Cd : ∀ k, k < m.ix.NK → 0 ≤ m.C_dk k
  b_p : ∀ p, p < m.n_p → 0 ≤ (m.pump p).b
  friction : ∀ i, i < m.N → m.method i = 0 ∨ m.method i = 1
  eps_pos : 0 < P.eps
  sec : ∀ i, i < m.N → (P.sec i).Usable P.ell m.min_depth
  storage : ∀ j, j < m.M → m.bc j = false → (P.storage j).Usable m.min_depth
  damp : P.damp = false

/-- Inputs of a call: positive step size, non-negative pump settings, round orifices not fully closed. -/
structure GoodInputs (m : Model) (P : Plan) (inp : Inputs) : Prop where
  dt_pos : 0 < inp.dt
  u_p : ∀ p, p < m.n_p → 0 ≤ inp.u_p p
  u_o : ∀ a, a < m.n_o → P.oShape a = .circular ∨ P.oShape a = .elliptical → (P.oGP a).g1 * inp.u_o a ≠ 0

/-- Objects as the constructor and every call leave them. -/
structure GoodObj (m : Model) (o : Obj) : Prop where
  clean : CleanWork m o.wk.mats
  wet : ∀ I, m.min_depth ≤ o.cur.h I

variable {m : Model} {P : Plan} {inp : Inputs}

theorem upTo_of_lt {n i : ℕ} (f : ℕ → ℝ) (h : i < n) : upTo n f i = f i := if_pos h

/-- The computed geometry of a sound model is physical, whatever the hidden arrays hold. -/
theorem physical_geoOf (sd : Sound m P) (gi : GoodInputs m P inp) (hid : Hidden) (Ao : ℕ → ℝ) {s : Hyd}
    (wet : ∀ I, m.min_depth ≤ s.h I) : PhysicalStep m (m.geoOf P hid Ao s) inp where
  g_pos := sd.g_pos
  dt_pos := gi.dt_pos
  A_pos := fun i hi => Section.A_pos sd.md_pos (sd.sec i hi) (wet _) (wet _)
  R_pos := fun i hi => Section.R_pos sd.eps_pos sd.md_pos (sd.sec i hi) (wet _) (wet _)
  B_nonneg := fun i hi => Section.B_nonneg (sd.sec i hi) _ _
  sigma_pos := fun i _ => by simp [Model.geoOf, sd.damp]
  n_pos := sd.n_pos
  dx_pos := sd.dx_pos
  C_nonneg := sd.C_nonneg
  AS_nonneg := sd.AS_nonneg
  Bu := fun k hk => by
    have := sd.cons.inN k hk
    have := sd.cons.layout.pos k hk
    simp only [Model.geoOf, upTo_of_lt _ hk]
    exact Section.B_nonneg (sd.sec _ (by omega)) _ _
  Bd := fun k hk => by
    have := sd.cons.inN k hk
    have := sd.cons.layout.pos k hk
    simp only [Model.geoOf, upTo_of_lt _ hk]
    exact Section.B_nonneg (sd.sec _ (by omega)) _ _
  dxu := sd.dxu
  dxd := sd.dxd
  Cu := sd.Cu
  Cd := sd.Cd
  As := fun j hj hb => by
    simp only [Model.geoOf, upTo_of_lt _ hj]
    exact Storage.A_pos sd.md_pos (sd.storage j hj hb) (le_max_right _ _)
  u_p := gi.u_p
  b_p := sd.b_p

theorem orificeArea_ok (old : ℝ) {s : Shape} {p : GP} (h u : ℝ)
    (hs : s = .circular ∨ s = .elliptical → p.g1 * u ≠ 0) : ∃ A, orificeArea old s p h u = .ok A := by
  cases s <;> simp only [orificeArea] <;> first
    | exact ⟨_, rfl⟩
    | (have h2 : p.g1 * u / 2 ≠ 0 := div_ne_zero (hs (by simp)) two_ne_zero
       rw [if_neg h2]; exact ⟨_, rfl⟩)

/-- One call leaves a good object. -/
theorem GoodObj.next (c : m.Consistent) {first : Bool} {o o' : Obj} (go : GoodObj m o)
    (h : Calls1 m P first inp o o') : GoodObj m o' := by
  obtain ⟨Ao, co, x, -, p, rfl⟩ := h
  refine ⟨go.clean.next, ?_⟩
  exact (C10_depths_bounded c (s := ⟨o.saved, o.cur, o.wk⟩) (Call.mk _ first _ inp co x p) .refl).1

/-- **C105 (one step).** A call of a sound model with good inputs succeeds from every good object. -/
theorem C105_step_succeeds (sd : Sound m P) (gi : GoodInputs m P inp) (first : Bool) {o : Obj}
    (go : GoodObj m o) : ∃ o', Calls1 m P first inp o o' := by
  have hA : ∀ a, a < m.n_o → ∃ A, orificeArea (o.hid.Ao a) (P.oShape a) (P.oGP a)
      (m.orificeDepth o.cur a) (inp.u_o a) = .ok A := fun a ha => orificeArea_ok _ _ _ (gi.u_o a ha)
  classical
  let Ao : ℕ → ℝ := fun a => if h : a < m.n_o then (hA a h).choose else 0
  have hAo : ∀ a, a < m.n_o → orificeArea (o.hid.Ao a) (P.oShape a) (P.oGP a)
      (m.orificeDepth o.cur a) (inp.u_o a) = .ok (Ao a) := fun a ha => by
    simp only [Ao, ha, dif_pos]; exact (hA a ha).choose_spec
  obtain ⟨co, x, p⟩ := C06_step_exists (prev := if first then o.cur else o.saved) (cur := o.cur) sd.cons
    (physical_geoOf sd gi o.hid Ao go.wet) go.clean sd.friction
  exact ⟨_, Ao, co, x, hAo, p, rfl⟩

/-- **C105.** Every sequence of calls of a sound model with good inputs succeeds: no division by zero, no
singular head equations, whatever happens to the water. -/
theorem C105_every_history_succeeds (sd : Sound m P) (l : List (Bool × Inputs))
    (hl : ∀ q ∈ l, GoodInputs m P q.2) {o : Obj} (go : GoodObj m o) :
    ∃ o', History m P l o o' ∧ GoodObj m o' := by
  induction l generalizing o with
  | nil => exact ⟨o, rfl, go⟩
  | cons q rest ih =>
    obtain ⟨o1, h1⟩ := C105_step_succeeds sd (hl q (by simp)) q.1 go
    obtain ⟨o', h', g'⟩ := ih (fun q' h => hl q' (List.mem_cons_of_mem _ h)) (go.next sd.cons h1)
    exact ⟨o', ⟨o1, h1, h'⟩, g'⟩

/-- Two objects with the same hydraulic arrays and the same hidden arrays; scratch arrays may differ. -/
structure SameObj (m : Model) (o o' : Obj) : Prop where
  cur : Agree m o.cur o'.cur
  saved : Agree m o.saved o'.saved
  hid : o.hid = o'.hid

theorem orificeDepth_agree (c : m.Consistent) {s s' : Hyd} (a : Agree m s s') {o : ℕ} (ho : o < m.n_o) :
    m.orificeDepth s o = m.orificeDepth s' o := by
  unfold Model.orificeDepth; rw [a.H _ (c.Juo o ho), a.H _ (c.Jdo o ho)]

/-- The geometry depends on existing entries of the state only. -/
theorem geoOf_agree (c : m.Consistent) (hid : Hidden) {Ao Ao' : ℕ → ℝ} (hA : ∀ a, a < m.n_o → Ao a = Ao' a)
    {s s' : Hyd} (a : Agree m s s') : m.geoOf P hid Ao s = m.geoOf P hid Ao' s' := by
  have hu : ∀ {n : ℕ} {f f' : ℕ → ℝ}, (∀ i, i < n → f i = f' i) → upTo n f = upTo n f' := by
    intro n f f' h; funext i; unfold upTo; split_ifs with hi
    · exact h i hi
    · rfl
  unfold Model.geoOf
  rw [a.h, a.Q]
  congr 1
  · exact hu fun k hk => by rw [a.H _ (c.Ju k hk)]
  · exact hu fun k hk => by rw [a.H _ (c.Ju k hk)]
  · exact hu fun k hk => by rw [a.H _ (c.Jd k hk)]
  · exact hu fun k hk => by rw [a.H _ (c.Jd k hk)]
  · exact hu fun k hk => by rw [a.H _ hk]
  · exact hu fun k hk => by rw [a.H _ hk]
  · exact hu hA

theorem nextHidden_agree (c : m.Consistent) {Ao Ao' : ℕ → ℝ} (hA : ∀ a, a < m.n_o → Ao a = Ao' a)
    {s s' : Hyd} (a : Agree m s s') : m.nextHidden Ao s = m.nextHidden Ao' s' := by
  have hu : ∀ {n : ℕ} {f f' : ℕ → ℝ}, (∀ i, i < n → f i = f' i) → upTo n f = upTo n f' := by
    intro n f f' h; funext i; unfold upTo; split_ifs with hi
    · exact h i hi
    · rfl
  unfold Model.nextHidden
  congr 1
  · exact hu fun k hk => by rw [a.H _ (c.Ju k hk)]
  · exact hu fun k hk => by rw [a.H _ (c.Jd k hk)]
  · exact hu hA

/-- One call leaves two same objects the same. -/
theorem SameObj.next (sd : Sound m P) (gi : GoodInputs m P inp) {first : Bool} {o o' o1 o1' : Obj}
    (go : GoodObj m o) (go' : GoodObj m o') (h : SameObj m o o') (hc : Calls1 m P first inp o o1)
    (hc' : Calls1 m P first inp o' o1') : SameObj m o1 o1' := by
  obtain ⟨Ao, co, x, hA, p, rfl⟩ := hc
  obtain ⟨Ao', co', x', hA', p', rfl⟩ := hc'
  have c := sd.cons
  have eA : ∀ a, a < m.n_o → Ao a = Ao' a := fun a ha => by
    have e := hA a ha
    have e' := hA' a ha
    rw [h.hid, orificeDepth_agree c h.cur ha, e'] at e
    exact (Except.ok.inj e).symm
  have eG := geoOf_agree (P := P) c o.hid eA h.cur
  rw [← h.hid, ← eG] at p' ⊢
  have hpp : Agree m (if first then o.cur else o.saved) (if first then o'.cur else o'.saved) := by
    cases first
    · exact h.saved
    · exact h.cur
  have key := C41_history_free c [⟨first, fun _ => m.geoOf P o.hid Ao o.cur, inp⟩]
    (by
      intro q hq
      obtain rfl := List.mem_singleton.mp hq
      exact ⟨fun _ => physical_geoOf sd gi o.hid Ao go.wet, fun _ _ _ => rfl⟩)
    (s := ⟨o.saved, o.cur, o.wk⟩) (s' := ⟨o'.saved, o'.cur, o'.wk⟩) go.clean go'.clean h.cur h.saved
    ⟨_, ⟨co, x, p, rfl⟩, rfl⟩ ⟨_, ⟨co', x', p', rfl⟩, rfl⟩
  exact ⟨key.1, key.2, nextHidden_agree c eA h.cur⟩

/-- **C41, partial.** Two objects of a sound model with the same hydraulic arrays *and the same hidden
arrays* (end switches, orifice areas) give the same results for every sequence of calls, whatever else
they went through. Missing: `save_state`/`load_state` do not restore the hidden arrays, see
`C41_retry_differs`. -/
theorem C41_same_switches_partial (sd : Sound m P) (l : List (Bool × Inputs))
    (hl : ∀ q ∈ l, GoodInputs m P q.2) {o o' a a' : Obj} (go : GoodObj m o) (go' : GoodObj m o')
    (h : SameObj m o o') (r : History m P l o a) (r' : History m P l o' a') : SameObj m a a' := by
  induction l generalizing o o' with
  | nil => cases r; cases r'; exact h
  | cons q rest ih =>
    obtain ⟨o1, h1, r⟩ := r
    obtain ⟨o1', h1', r'⟩ := r'
    have gi := hl q (by simp)
    exact ih (fun q' h => hl q' (List.mem_cons_of_mem _ h)) (go.next sd.cons h1) (go'.next sd.cons h1')
      (h.next sd gi go go' h1 h1') r r'

/-- **C105 (determined).** The results of a history are uniquely determined by the object it starts
from. -/
theorem C105_unique (sd : Sound m P) (l : List (Bool × Inputs)) (hl : ∀ q ∈ l, GoodInputs m P q.2)
    {o a a' : Obj} (go : GoodObj m o) (r : History m P l o a) (r' : History m P l o a') :
    SameObj m a a' :=
  C41_same_switches_partial sd l hl go go ⟨Agree.refl _, Agree.refl _, rfl⟩ r r'

/-! ### When the hidden arrays do not matter -/

/-- No storage and no losses at superlink ends, no floodplain orifice: nothing reads the hidden arrays. -/
structure EndFree (m : Model) (P : Plan) : Prop where
  dxu : ∀ k, m.dx_uk k = 0
  dxd : ∀ k, m.dx_dk k = 0
  Cu : ∀ k, m.C_uk k = 0
  Cd : ∀ k, m.C_dk k = 0
  orif : ∀ a, a < m.n_o → P.oShape a ≠ .floodplain

theorem headCoef_endFree (ef : EndFree m P) (hid hid' : Hidden) (Ao : ℕ → ℝ) (s cur : Hyd) (k : ℕ) :
    m.headCoef (m.geoOf P hid Ao s) cur k = m.headCoef (m.geoOf P hid' Ao s) cur k := by
  unfold Model.headCoef headCoefZ gammaUk gammaDk
  simp only [ef.Cu, ef.Cd, mul_zero, safeDivide_eq, zero_div]

theorem node_endFree (ef : EndFree m P) (hid hid' : Hidden) (Ao : ℕ → ℝ) (s prev : Hyd) (I : ℕ) :
    nodeE (m.nodeIn (m.geoOf P hid Ao s) inp prev) m.nix I = nodeE (m.nodeIn (m.geoOf P hid' Ao s) inp prev) m.nix I
    ∧ nodeD (m.nodeIn (m.geoOf P hid Ao s) inp prev) m.nix I
      = nodeD (m.nodeIn (m.geoOf P hid' Ao s) inp prev) m.nix I := by
  unfold nodeE nodeD Model.nodeIn Model.geoOf EIk DIk
  simp only [ef.dxu, ef.dxd, mul_zero]
  exact ⟨trivial, trivial⟩

theorem net_endFree (ef : EndFree m P) (hid hid' : Hidden) (Ao : ℕ → ℝ) (s cur : Hyd) (wk : Work)
    (co : Coef ℝ) : m.net (m.geoOf P hid Ao s) inp wk cur co = m.net (m.geoOf P hid' Ao s) inp wk cur co := by
  unfold Model.net xi
  simp only [headCoef_endFree ef hid hid' Ao s cur, ef.dxu, ef.dxd, zero_mul]
  rfl

theorem Calls1.endFree (ef : EndFree m P) {first : Bool} {o o1 : Obj} (hid' : Hidden)
    (h : Calls1 m P first inp o o1) : Calls1 m P first inp { o with hid := hid' } o1 := by
  obtain ⟨Ao, co, x, hA, p, rfl⟩ := h
  have en := net_endFree (inp := inp) ef o.hid hid' Ao o.cur o.cur o.wk co
  refine ⟨Ao, co, x, fun a ha => ?_, ⟨⟨p.coefs.1, fun I => ?_, fun I => ?_⟩, ?_⟩, ?_⟩
  · rw [← hA a ha]
    have := ef.orif a ha
    show orificeArea (hid'.Ao a) _ _ _ _ = _
    revert this
    cases P.oShape a <;> intro this <;> first | rfl | exact absurd rfl this
  · exact (p.coefs.2.1 I).trans (node_endFree ef o.hid hid' Ao o.cur _ I).1
  · exact (p.coefs.2.2 I).trans (node_endFree ef o.hid hid' Ao o.cur _ I).2
  · have := p.solve
    unfold Model.lhs Model.rhs Model.mats at this ⊢
    rw [en] at this; exact this
  · have e1 : m.advance (m.geoOf P o.hid Ao o.cur) inp o.wk o.cur co x
        = m.advance (m.geoOf P hid' Ao o.cur) inp o.wk o.cur co x := by
      unfold Model.advance
      simp only [headCoef_endFree ef o.hid hid' Ao o.cur o.cur]
      rfl
    have e2 : m.work (m.geoOf P o.hid Ao o.cur) inp o.wk o.cur co
        = m.work (m.geoOf P hid' Ao o.cur) inp o.wk o.cur co := by
      unfold Model.work Model.mats
      rw [en]
      rfl
    rw [e1, e2]

/-- **C41, partial (no storage and no losses at superlink ends).** Then the hydraulic arrays alone
determine everything that follows: reloading a saved state and repeating calls reproduces the results. -/
theorem C41_end_free_partial (sd : Sound m P) (ef : EndFree m P) (l : List (Bool × Inputs))
    (hl : ∀ q ∈ l, GoodInputs m P q.2) {o o' a a' : Obj} (go : GoodObj m o) (go' : GoodObj m o')
    (hc : Agree m o.cur o'.cur) (hs : Agree m o.saved o'.saved) (r : History m P l o a)
    (r' : History m P l o' a') : Agree m a.cur a'.cur ∧ Agree m a.saved a'.saved := by
  cases l with
  | nil => cases r; cases r'; exact ⟨hc, hs⟩
  | cons q rest =>
    obtain ⟨o1, h1, r⟩ := r
    have r2 : History m P (q :: rest) { o with hid := o'.hid } a := ⟨o1, h1.endFree ef o'.hid, r⟩
    have := C41_same_switches_partial sd (q :: rest) hl (o := { o with hid := o'.hid }) ⟨go.clean, go.wet⟩ go'
      ⟨hc, hs, rfl⟩ r2 r'
    exact ⟨this.cur, this.saved⟩

/-- **C41, partial (retry).** After any calls, loading the state the object had before them and repeating a
call gives the first results again, provided the calls left the end switches (and floodplain orifice
areas) as they were. -/
theorem C41_retry_partial (sd : Sound m P) (l l' : List (Bool × Inputs)) (gi : GoodInputs m P inp)
    (hl : ∀ q ∈ l, GoodInputs m P q.2) (hl' : ∀ q ∈ l', GoodInputs m P q.2) {o o1 a a' : Obj}
    (go : GoodObj m o) (r : History m P l o o1) (sw : o1.hid = o.hid)
    (h : History m P ((true, inp) :: l') o a) (h' : History m P ((true, inp) :: l') (o1.load o.cur) a') :
    Agree m a.cur a'.cur := by
  have go1 : GoodObj m o1 := by
    clear h h' sw
    induction l generalizing o with
    | nil => cases r; exact go
    | cons q rest ih =>
      obtain ⟨o2, h2, r⟩ := r
      exact ih (fun q' h => hl q' (List.mem_cons_of_mem _ h)) (go.next sd.cons h2) r
  obtain ⟨b, hb, h⟩ := h
  obtain ⟨b', hb', h'⟩ := h'
  have hb2 : Calls1 m P true inp { o1.load o.cur with saved := o.saved } b' := by
    obtain ⟨Ao, co, x, hA, p, rfl⟩ := hb'
    exact ⟨Ao, co, x, hA, p, rfl⟩
  have s1 := SameObj.next sd gi go (o' := { o1.load o.cur with saved := o.saved }) ⟨go1.clean, go.wet⟩
    ⟨Agree.refl _, Agree.refl _, sw.symm⟩ hb hb2
  exact (C41_same_switches_partial sd l' hl' (go.next sd.cons hb)
    (GoodObj.next sd.cons (o := { o1.load o.cur with saved := o.saved }) ⟨go1.clean, go.wet⟩ hb2) s1 h h').cur

end Pipedream.Step
