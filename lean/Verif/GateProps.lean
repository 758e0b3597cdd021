import Verif.StabilityProps
import Verif.ControlProps

/-!
# C161: opening a control further

Two steps from the same state which differ in the signal of one pump, weir or orifice. The control passes more
water in one of them exactly if its relation would pass more at the heads of the other, and the water on its
source side is then no higher, on its receiving side no lower.
-/

namespace Pipedream.Network

variable {K : Type*} [Field K] [LinearOrder K] [IsStrictOrderedRing K]

/-! ### Lemmas -/

/-- Moving water from row `d` to row `u` does not lower the solution at `u`. -/
theorem ColDom.exchange {M : ℕ} {bc : ℕ → Bool} {l : ℕ → ℕ → K} (h : ColDom M bc l) {e : ℕ → K} {u d : ℕ} {δ : K}
    (hδ : 0 ≤ δ) (hu : u < M)
    (hx : ∀ i, i < M → ∑ j ∈ Finset.range M, l i j * e j
      = if bc i = true then 0 else δ * ((if i = u then 1 else 0) - (if i = d then 1 else 0))) : 0 ≤ e u := by
  by_contra hneg
  have hneg := not_le.mp hneg
  let N := (Finset.range M).filter (fun i => e i < 0)
  have hN : ∀ i, i ∈ N ↔ i < M ∧ e i < 0 := by intro i; simp [N]
  have hfree : ∀ i ∈ N, bc i = false := by
    intro i hi
    obtain ⟨him, hxi⟩ := (hN i).mp hi
    by_contra hb
    have hb' : bc i = true := by simpa using hb
    have := hx i him
    rw [Finset.sum_congr rfl (fun j hj => by
      rw [h.bc_row i him hb' j (Finset.mem_range.mp hj)]), if_pos hb'] at this
    simp only [ite_mul, one_mul, zero_mul, Finset.sum_ite_eq, Finset.mem_range, him, if_true] at this
    linarith
  have hsum : 0 ≤ ∑ i ∈ N, ∑ j ∈ Finset.range M, l i j * e j := by
    rw [Finset.sum_congr rfl (fun i hi => by
      rw [hx i ((hN i).mp hi).1, if_neg (by rw [hfree i hi]; exact Bool.false_ne_true)])]
    rw [← Finset.mul_sum, Finset.sum_sub_distrib, Finset.sum_ite_eq', Finset.sum_ite_eq',
      if_pos ((hN u).mpr ⟨hu, hneg⟩)]
    refine mul_nonneg hδ ?_
    split_ifs <;> norm_num
  rw [Finset.sum_comm] at hsum
  have hterm : ∀ j ∈ Finset.range M, ∑ i ∈ N, l i j * e j ≤ 0 ∧ (j ∈ N → ∑ i ∈ N, l i j * e j < 0) := by
    intro j hj
    have hjM := Finset.mem_range.mp hj
    rw [← Finset.sum_mul]
    by_cases hjN : j ∈ N
    · have hxj := ((hN j).mp hjN).2
      have hpos : 0 < ∑ i ∈ N, l i j := by
        have hsub : N ⊆ (Finset.range M).filter (fun i => bc i = false) := by
          intro i hi
          simp only [Finset.mem_filter, Finset.mem_range]
          exact ⟨((hN i).mp hi).1, hfree i hi⟩
        have hc := h.col j hjM (hfree j hjN)
        rw [← Finset.sum_sdiff hsub] at hc
        have : ∑ i ∈ (Finset.range M).filter (fun i => bc i = false) \ N, l i j ≤ 0 := by
          apply Finset.sum_nonpos
          intro i hi
          simp only [Finset.mem_sdiff, Finset.mem_filter, Finset.mem_range] at hi
          exact h.off i hi.1.1 j hjM hi.1.2 (fun e => hi.2 (e ▸ hjN))
        linarith
      have := mul_neg_of_pos_of_neg hpos hxj
      exact ⟨this.le, fun _ => this⟩
    · have hxj : 0 ≤ e j := by
        by_contra hc
        exact hjN ((hN j).mpr ⟨hjM, not_le.mp hc⟩)
      have hle : ∑ i ∈ N, l i j ≤ 0 := by
        apply Finset.sum_nonpos
        intro i hi
        exact h.off i ((hN i).mp hi).1 j hjM (hfree i hi) (fun e => hjN (e ▸ hi))
      exact ⟨mul_nonpos_of_nonpos_of_nonneg hle hxj, fun q => absurd q hjN⟩
  have : ∑ j ∈ Finset.range M, ∑ i ∈ N, l i j * e j < 0 := by
    apply Finset.sum_neg' (fun j hj => (hterm j hj).1)
    exact ⟨u, Finset.mem_range.mpr hu, (hterm u (Finset.mem_range.mpr hu)).2 ((hN u).mpr ⟨hu, hneg⟩)⟩
  linarith

/-- The head equations: prescribed heads and balances. -/
def HeadEqs (net : Net K) (dt : K) (Hp Q0 Hbc x : ℕ → K) : Prop :=
  ∀ i, i < net.M → (net.bc i = true → x i = Hbc i) ∧ (net.bc i = false → Balanced net dt Hp Q0 x i)

/-- `q` taken from superjunction `u` and given to `d`. -/
def moved (Q0 : ℕ → K) (u d : ℕ) (q : K) : ℕ → K := fun i =>
  Q0 i + ((if d = i then q else 0) - (if u = i then q else 0))

/-- Less water moved: the source no lower, the receiver no higher. -/
theorem moved_mono (R : Net K) (dt : K) (hdt : 0 < dt) (hs : Signed R) (hw : Wired R) {Hp Q0 Hbc x x' : ℕ → K}
    {u d : ℕ} (hu : u < R.M) (hd : d < R.M) {q q' : K} (hq : q' ≤ q)
    (hx : HeadEqs R dt Hp (moved Q0 u d q) Hbc x) (hx' : HeadEqs R dt Hp (moved Q0 u d q') Hbc x') :
    x u ≤ x' u ∧ x' d ≤ x d := by
  set m0 : Mats K := ⟨fun _ _ => 0, fun _ _ => 0, fun _ _ => 0, fun _ _ => 0⟩ with hm0
  have cm : CleanMats R m0 := cleanMats_zero R
  have s := (solves_iff R dt m0 cm hw Hp (moved Q0 u d q) Hbc x).mpr hx
  have s' := (solves_iff R dt m0 cm hw Hp (moved Q0 u d q') Hbc x').mpr hx'
  have D := system_colDom R dt hdt m0 cm hs
  have row : ∀ i, i < R.M → ∑ j ∈ Finset.range R.M, systemMatrix R (assembleMats R dt m0) i j * (x' j - x j)
      = if R.bc i = true then 0 else (q - q') * ((if i = u then 1 else 0) - (if i = d then 1 else 0)) := by
    intro i hi
    simp only [mul_sub, Finset.sum_sub_distrib]
    rw [s i hi, s' i hi]
    by_cases hb : R.bc i = true
    · simp [assembleB, hb]
    · simp only [assembleB, hb, moved, eq_comm (a := d), eq_comm (a := u)]
      simp only [Bool.false_eq_true, if_false]
      split_ifs <;> ring
  have h1 := D.exchange (sub_nonneg.mpr hq) hu row
  have h2 := D.exchange (e := fun j => x j - x' j) (u := d) (d := u) (sub_nonneg.mpr hq) hd (fun i hi => by
    have := row i hi
    have e : ∑ j ∈ Finset.range R.M, systemMatrix R (assembleMats R dt m0) i j * (x j - x' j)
        = -∑ j ∈ Finset.range R.M, systemMatrix R (assembleMats R dt m0) i j * (x' j - x j) := by
      rw [← Finset.sum_neg_distrib]
      exact Finset.sum_congr rfl fun j _ => by ring
    rw [e, this]
    split_ifs <;> ring)
  exact ⟨sub_nonneg.mp h1, sub_nonneg.mp h2⟩

/-- The list of controls with control `c` shut. -/
def Ctrls.shut (C : Ctrls K) (c : ℕ) : Ctrls K :=
  { C with alpha := upd C.alpha c 0, beta := upd C.beta c 0, chi := upd C.chi c 0 }

omit [LinearOrder K] [IsStrictOrderedRing K] in
theorem Ctrls.inflow_shut (C : Ctrls K) {c : ℕ} (hc : c < C.n) (H : ℕ → K) (i : ℕ) :
    C.inflow H i = (C.shut c).inflow H i + ((if C.Jd c = i then C.Q H c else 0) - (if C.Ju c = i then C.Q H c else 0)) := by
  unfold Ctrls.inflow
  show _ = ∑ k ∈ Finset.range C.n, ((if C.Jd k = i then (C.shut c).Q H k else 0) - (if C.Ju k = i then (C.shut c).Q H k else 0)) + _
  have hm : c ∈ Finset.range C.n := Finset.mem_range.mpr hc
  rw [← Finset.add_sum_erase _ _ hm, ← Finset.add_sum_erase (Finset.range C.n)
    (fun k => (if C.Jd k = i then (C.shut c).Q H k else 0) - (if C.Ju k = i then (C.shut c).Q H k else 0)) hm]
  have z : (C.shut c).Q H c = 0 := by simp [Ctrls.Q, Ctrls.shut, upd]
  have r : ∀ k ∈ (Finset.range C.n).erase c, (C.shut c).Q H k = C.Q H k := by
    intro k hk
    have : k ≠ c := (Finset.mem_erase.mp hk).1
    simp [Ctrls.Q, Ctrls.shut, upd, this]
  have e : ∑ k ∈ (Finset.range C.n).erase c,
      ((if C.Jd k = i then (C.shut c).Q H k else 0) - (if C.Ju k = i then (C.shut c).Q H k else 0))
      = ∑ k ∈ (Finset.range C.n).erase c,
      ((if C.Jd k = i then C.Q H k else 0) - (if C.Ju k = i then C.Q H k else 0)) :=
    Finset.sum_congr rfl (fun k hk => by rw [r k hk])
  rw [e, z]
  simp only [ite_self, sub_self, zero_add]
  ring

/-- Two solves which differ in the relation of one control between `u` and `d`. `R` is the network with that control
shut, `q`, `q'` the two relations. -/
theorem gate_core (R : Net K) (dt : K) (hdt : 0 < dt) (hs : Signed R) (hw : Wired R) {Hp Q0 Hbc x x' : ℕ → K}
    {u d : ℕ} (hu : u < R.M) (hd : d < R.M) {q q' : (ℕ → K) → K}
    (mono : ∀ y y' : ℕ → K, y u ≤ y' u → y' d ≤ y d → q' y ≤ q' y')
    (hx : HeadEqs R dt Hp (moved Q0 u d (q x)) Hbc x) (hx' : HeadEqs R dt Hp (moved Q0 u d (q' x')) Hbc x') :
    (q x ≤ q' x' ↔ q x ≤ q' x) ∧ (q x ≤ q' x → x' u ≤ x u ∧ x d ≤ x' d) := by
  have key : q x ≤ q' x ↔ q x ≤ q' x' := by
    constructor
    · intro h
      by_contra hlt
      have hlt := not_le.mp hlt
      obtain ⟨a, b⟩ := moved_mono R dt hdt hs hw hu hd hlt.le hx hx'
      exact absurd (h.trans (mono x x' a b)) (not_le.mpr hlt)
    · intro h
      obtain ⟨a, b⟩ := moved_mono R dt hdt hs hw hu hd h hx' hx
      exact h.trans (mono x' x a b)
  exact ⟨key.symm, fun h => moved_mono R dt hdt hs hw hu hd (key.1 h) hx' hx⟩

theorem Links.inflow_congr (L : Links ℝ) {x y : ℕ → ℝ} (hu : ∀ k, y (L.Ju k) = x (L.Ju k))
    (hd : ∀ k, y (L.Jd k) = x (L.Jd k)) (i : ℕ) : L.inflow y i = L.inflow x i := by
  simp only [Links.inflow, Links.Qu, Links.Qd, hu, hd]

theorem Ctrls.inflow_congr (C : Ctrls ℝ) {x y : ℕ → ℝ} (hu : ∀ k, y (C.Ju k) = x (C.Ju k))
    (hd : ∀ k, y (C.Jd k) = x (C.Jd k)) (i : ℕ) : C.inflow y i = C.inflow x i := by
  simp only [Ctrls.inflow, Ctrls.Q, hu, hd]

end Pipedream.Network

namespace Pipedream.Step

open Pipedream.Sweep Pipedream.Link Pipedream.Superlink Pipedream.Control Pipedream.Network

variable {m : Model} {geo : Geo} {inp : Inputs} {wk : Work} {prev cur : Hyd} {co : Coef ℝ} {x x' : ℕ → ℝ}

noncomputable section

/-- Flow of pump `c` in the head equations of the step. -/
def pumpRel (m : Model) (inp : Inputs) (wk : Work) (cur : Hyd) (c : ℕ) (H : ℕ → ℝ) : ℝ :=
  (m.pLin inp wk cur c).eval (H (m.Jup c)) (H (m.Jdp c))

/-- Flow of weir `c` in the head equations of the step. -/
def weirRel (m : Model) (inp : Inputs) (wk : Work) (cur : Hyd) (c : ℕ) (H : ℕ → ℝ) : ℝ :=
  (m.wLin inp wk cur c).eval (H (m.Juw c)) (H (m.Jdw c))

/-- Flow of orifice `c` in the head equations of the step. -/
def orificeRel (m : Model) (geo : Geo) (inp : Inputs) (wk : Work) (cur : Hyd) (c : ℕ) (H : ℕ → ℝ) : ℝ :=
  (m.oLin geo inp wk cur c).eval (H (m.Juo c)) (H (m.Jdo c))

/-! ### C161 -/

/-- **C161 (pumps).** Two passes from the same state with different speeds of pump `c`. -/
theorem C161_pump_iff (cs : m.Consistent) (ps : PhysicalStep m geo inp) (cw : CleanWork m wk.mats) {c : ℕ}
    (hc : c < m.n_p) {u' : ℝ} (hu' : 0 ≤ u') (p : Pass m geo inp wk prev cur co x)
    (p' : Pass m geo { inp with u_p := upd inp.u_p c u' } wk prev cur co x') :
    (pumpRel m inp wk cur c x ≤ pumpRel m { inp with u_p := upd inp.u_p c u' } wk cur c x' ↔
      pumpRel m inp wk cur c x ≤ pumpRel m { inp with u_p := upd inp.u_p c u' } wk cur c x) ∧
    (pumpRel m inp wk cur c x ≤ pumpRel m { inp with u_p := upd inp.u_p c u' } wk cur c x →
      x' (m.Jup c) ≤ x (m.Jup c) ∧ x (m.Jdp c) ≤ x' (m.Jdp c)) := by
  set inp' : Inputs := { inp with u_p := upd inp.u_p c u' } with hinp
  set R : Net ℝ := { m.net geo inp wk cur co with pumps := (m.net geo inp wk cur co).pumps.shut c } with hR
  have sg := signed (wk := wk) cs ps p.coefs
  have w := wired (geo := geo) (inp := inp) (wk := wk) (cur := cur) (co := co) cs
  have sR : Signed R := by
    refine ⟨sg.ad, sg.au, sg.bu, sg.bd, sg.xu, sg.xd, sg.oa, sg.ob, sg.wa, sg.wb, fun k hk => ?_, fun k hk => ?_, sg.As⟩
    · show 0 ≤ upd _ c 0 k
      unfold upd; split_ifs
      · exact le_rfl
      · exact sg.pa k hk
    · show upd _ c 0 k ≤ 0
      unfold upd; split_ifs
      · exact le_rfl
      · exact sg.pb k hk
  have wR : Wired R := ⟨w.lu, w.ld, w.ou, w.od, w.wu, w.wd, w.pu, w.pd⟩
  have he := (solves_iff _ inp.dt wk.mats cw.mats w prev.H inp.Q_in (inp.H_bc.getD cur.H) x).mp p.solve
  have he' := (solves_iff (m.net geo inp' wk cur co) inp.dt wk.mats cw.mats (wired cs) prev.H inp.Q_in
    (inp.H_bc.getD cur.H) x').mp p'.solve
  have others : ∀ o, o ≠ c → m.pLin inp' wk cur o = m.pLin inp wk cur o := by
    intro o ho
    simp [Model.pLin, hinp, upd, ho]
  have hR' : (m.net geo inp' wk cur co).pumps.shut c = (m.net geo inp wk cur co).pumps.shut c := by
    simp only [Ctrls.shut, Model.net, Ctrls.mk.injEq, true_and]
    refine ⟨?_, ?_, ?_⟩ <;>
    · funext o
      unfold upd
      split_ifs with ho
      · rfl
      · simp only [others o ho]
  have hx : HeadEqs R inp.dt prev.H (moved inp.Q_in (m.Jup c) (m.Jdp c) (pumpRel m inp wk cur c x))
      (inp.H_bc.getD cur.H) x := by
    intro i hi
    refine ⟨(he i hi).1, fun hb => ?_⟩
    have b := (he i hi).2 hb
    unfold Network.Balanced at b ⊢
    rw [Ctrls.inflow_shut (Model.net _ _ _ _ _ _).pumps (c := c) hc] at b
    refine b.trans ?_
    simp only [moved]
    have q : (m.net geo inp wk cur co).pumps.Q x c = pumpRel m inp wk cur c x := rfl
    rw [q]
    show _ + _ + _ + _ + (_ + ((if m.Jdp c = i then _ else 0) - (if m.Jup c = i then _ else 0))) = _
    simp only [hR]
    ring
  have hx' : HeadEqs R inp.dt prev.H (moved inp.Q_in (m.Jup c) (m.Jdp c) (pumpRel m inp' wk cur c x'))
      (inp.H_bc.getD cur.H) x' := by
    intro i hi
    refine ⟨(he' i hi).1, fun hb => ?_⟩
    have b := (he' i hi).2 hb
    unfold Network.Balanced at b ⊢
    rw [Ctrls.inflow_shut (Model.net _ _ _ _ _ _).pumps (c := c) hc, hR'] at b
    refine b.trans ?_
    simp only [moved]
    have q : (m.net geo inp' wk cur co).pumps.Q x' c = pumpRel m inp' wk cur c x' := rfl
    rw [q]
    show _ + _ + _ + _ + (_ + ((if m.Jdp c = i then _ else 0) - (if m.Jup c = i then _ else 0))) = _
    have e1 : (m.net geo inp' wk cur co).links = R.links := rfl
    have e2 : (m.net geo inp' wk cur co).orifices = R.orifices := rfl
    have e3 : (m.net geo inp' wk cur co).weirs = R.weirs := rfl
    rw [e1, e2, e3]
    simp only [hR]
    ring
  refine gate_core R inp.dt ps.dt_pos sR wR (cs.Jup c hc) (cs.Jdp c hc) (fun y y' h1 h2 => ?_) hx hx'
  have s' : (m.pLin inp' wk cur c).Signed :=
    pumpLin_signed _ _ (by simpa [hinp, upd] using hu') (ps.b_p c hc)
  have a := mul_le_mul_of_nonneg_left h1 s'.1
  have b := mul_le_mul_of_nonpos_left h2 s'.2
  simp only [pumpRel, Lin.eval]
  linarith

/-- **C161 (weirs).** Two passes from the same state with different settings of weir `c`. -/
theorem C161_weir_iff (cs : m.Consistent) (ps : PhysicalStep m geo inp) (cw : CleanWork m wk.mats) {c : ℕ}
    (hc : c < m.n_w) {u' : ℝ} (p : Pass m geo inp wk prev cur co x)
    (p' : Pass m geo { inp with u_w := upd inp.u_w c u' } wk prev cur co x') :
    (weirRel m inp wk cur c x ≤ weirRel m { inp with u_w := upd inp.u_w c u' } wk cur c x' ↔
      weirRel m inp wk cur c x ≤ weirRel m { inp with u_w := upd inp.u_w c u' } wk cur c x) ∧
    (weirRel m inp wk cur c x ≤ weirRel m { inp with u_w := upd inp.u_w c u' } wk cur c x →
      x' (m.Juw c) ≤ x (m.Juw c) ∧ x (m.Jdw c) ≤ x' (m.Jdw c)) := by
  set inp' : Inputs := { inp with u_w := upd inp.u_w c u' } with hinp
  set R : Net ℝ := { m.net geo inp wk cur co with weirs := (m.net geo inp wk cur co).weirs.shut c } with hR
  have sg := signed (wk := wk) cs ps p.coefs
  have w := wired (geo := geo) (inp := inp) (wk := wk) (cur := cur) (co := co) cs
  have sR : Signed R := by
    refine ⟨sg.ad, sg.au, sg.bu, sg.bd, sg.xu, sg.xd, sg.oa, sg.ob, fun k hk => ?_, fun k hk => ?_, sg.pa, sg.pb, sg.As⟩
    · show 0 ≤ upd _ c 0 k
      unfold upd; split_ifs
      · exact le_rfl
      · exact sg.wa k hk
    · show upd _ c 0 k ≤ 0
      unfold upd; split_ifs
      · exact le_rfl
      · exact sg.wb k hk
  have wR : Wired R := ⟨w.lu, w.ld, w.ou, w.od, w.wu, w.wd, w.pu, w.pd⟩
  have he := (solves_iff _ inp.dt wk.mats cw.mats w prev.H inp.Q_in (inp.H_bc.getD cur.H) x).mp p.solve
  have he' := (solves_iff (m.net geo inp' wk cur co) inp.dt wk.mats cw.mats (wired cs) prev.H inp.Q_in
    (inp.H_bc.getD cur.H) x').mp p'.solve
  have others : ∀ o, o ≠ c → m.wLin inp' wk cur o = m.wLin inp wk cur o := by
    intro o ho
    simp [Model.wLin, hinp, upd, ho]
  have hR' : (m.net geo inp' wk cur co).weirs.shut c = (m.net geo inp wk cur co).weirs.shut c := by
    simp only [Ctrls.shut, Model.net, Ctrls.mk.injEq, true_and]
    refine ⟨?_, ?_, ?_⟩ <;>
    · funext o
      unfold upd
      split_ifs with ho
      · rfl
      · simp only [others o ho]
  have hx : HeadEqs R inp.dt prev.H (moved inp.Q_in (m.Juw c) (m.Jdw c) (weirRel m inp wk cur c x))
      (inp.H_bc.getD cur.H) x := by
    intro i hi
    refine ⟨(he i hi).1, fun hb => ?_⟩
    have b := (he i hi).2 hb
    unfold Network.Balanced at b ⊢
    rw [Ctrls.inflow_shut (Model.net _ _ _ _ _ _).weirs (c := c) hc] at b
    refine b.trans ?_
    simp only [moved]
    have q : (m.net geo inp wk cur co).weirs.Q x c = weirRel m inp wk cur c x := rfl
    rw [q]
    show _ + _ + _ + (_ + ((if m.Jdw c = i then _ else 0) - (if m.Juw c = i then _ else 0))) + _ = _
    simp only [hR]
    ring
  have hx' : HeadEqs R inp.dt prev.H (moved inp.Q_in (m.Juw c) (m.Jdw c) (weirRel m inp' wk cur c x'))
      (inp.H_bc.getD cur.H) x' := by
    intro i hi
    refine ⟨(he' i hi).1, fun hb => ?_⟩
    have b := (he' i hi).2 hb
    unfold Network.Balanced at b ⊢
    rw [Ctrls.inflow_shut (Model.net _ _ _ _ _ _).weirs (c := c) hc, hR'] at b
    refine b.trans ?_
    simp only [moved]
    have q : (m.net geo inp' wk cur co).weirs.Q x' c = weirRel m inp' wk cur c x' := rfl
    rw [q]
    show _ + _ + _ + (_ + ((if m.Jdw c = i then _ else 0) - (if m.Juw c = i then _ else 0))) + _ = _
    have e1 : (m.net geo inp' wk cur co).links = R.links := rfl
    have e2 : (m.net geo inp' wk cur co).orifices = R.orifices := rfl
    have e3 : (m.net geo inp' wk cur co).pumps = R.pumps := rfl
    rw [e1, e2, e3]
    simp only [hR]
    ring
  refine gate_core R inp.dt ps.dt_pos sR wR (cs.Juw c hc) (cs.Jdw c hc) (fun y y' h1 h2 => ?_) hx hx'
  have s' : (m.wLin inp' wk cur c).Signed :=
    weirLin_signed _ _ _ _ _ _
  have a := mul_le_mul_of_nonneg_left h1 s'.1
  have b := mul_le_mul_of_nonpos_left h2 s'.2
  simp only [weirRel, Lin.eval]
  linarith

/-- **C161 (orifices).** Two passes from the same state with different openings `u'` and areas `A'` of orifice `c`. -/
theorem C161_orifice_iff (cs : m.Consistent) (ps : PhysicalStep m geo inp) (cw : CleanWork m wk.mats) {c : ℕ}
    (hc : c < m.n_o) {u' A' : ℝ} (p : Pass m geo inp wk prev cur co x)
    (p' : Pass m { geo with Ao := upd geo.Ao c A' } { inp with u_o := upd inp.u_o c u' } wk prev cur co x') :
    (orificeRel m geo inp wk cur c x ≤ orificeRel m { geo with Ao := upd geo.Ao c A' } { inp with u_o := upd inp.u_o c u' } wk cur c x' ↔
      orificeRel m geo inp wk cur c x ≤ orificeRel m { geo with Ao := upd geo.Ao c A' } { inp with u_o := upd inp.u_o c u' } wk cur c x) ∧
    (orificeRel m geo inp wk cur c x ≤ orificeRel m { geo with Ao := upd geo.Ao c A' } { inp with u_o := upd inp.u_o c u' } wk cur c x →
      x' (m.Juo c) ≤ x (m.Juo c) ∧ x (m.Jdo c) ≤ x' (m.Jdo c)) := by
  set inp' : Inputs := { inp with u_o := upd inp.u_o c u' } with hinp
  set geo' : Geo := { geo with Ao := upd geo.Ao c A' } with hgeo
  set R : Net ℝ := { m.net geo inp wk cur co with orifices := (m.net geo inp wk cur co).orifices.shut c } with hR
  have sg := signed (wk := wk) cs ps p.coefs
  have w := wired (geo := geo) (inp := inp) (wk := wk) (cur := cur) (co := co) cs
  have sR : Signed R := by
    refine ⟨sg.ad, sg.au, sg.bu, sg.bd, sg.xu, sg.xd, fun k hk => ?_, fun k hk => ?_, sg.wa, sg.wb, sg.pa, sg.pb, sg.As⟩
    · show 0 ≤ upd _ c 0 k
      unfold upd; split_ifs
      · exact le_rfl
      · exact sg.oa k hk
    · show upd _ c 0 k ≤ 0
      unfold upd; split_ifs
      · exact le_rfl
      · exact sg.ob k hk
  have wR : Wired R := ⟨w.lu, w.ld, w.ou, w.od, w.wu, w.wd, w.pu, w.pd⟩
  have he := (solves_iff _ inp.dt wk.mats cw.mats w prev.H inp.Q_in (inp.H_bc.getD cur.H) x).mp p.solve
  have he' := (solves_iff (m.net geo' inp' wk cur co) inp.dt wk.mats cw.mats (wired cs) prev.H inp.Q_in
    (inp.H_bc.getD cur.H) x').mp p'.solve
  have others : ∀ o, o ≠ c → m.oLin geo' inp' wk cur o = m.oLin geo inp wk cur o := by
    intro o ho
    simp [Model.oLin, hinp, hgeo, upd, ho]
  have hR' : (m.net geo' inp' wk cur co).orifices.shut c = (m.net geo inp wk cur co).orifices.shut c := by
    simp only [Ctrls.shut, Model.net, Ctrls.mk.injEq, true_and]
    refine ⟨?_, ?_, ?_⟩ <;>
    · funext o
      unfold upd
      split_ifs with ho
      · rfl
      · simp only [others o ho]
  have hx : HeadEqs R inp.dt prev.H (moved inp.Q_in (m.Juo c) (m.Jdo c) (orificeRel m geo inp wk cur c x))
      (inp.H_bc.getD cur.H) x := by
    intro i hi
    refine ⟨(he i hi).1, fun hb => ?_⟩
    have b := (he i hi).2 hb
    unfold Network.Balanced at b ⊢
    rw [Ctrls.inflow_shut (Model.net _ _ _ _ _ _).orifices (c := c) hc] at b
    refine b.trans ?_
    simp only [moved]
    have q : (m.net geo inp wk cur co).orifices.Q x c = orificeRel m geo inp wk cur c x := rfl
    rw [q]
    show _ + _ + (_ + ((if m.Jdo c = i then _ else 0) - (if m.Juo c = i then _ else 0))) + _ + _ = _
    simp only [hR]
    ring
  have hx' : HeadEqs R inp.dt prev.H (moved inp.Q_in (m.Juo c) (m.Jdo c) (orificeRel m geo' inp' wk cur c x'))
      (inp.H_bc.getD cur.H) x' := by
    intro i hi
    refine ⟨(he' i hi).1, fun hb => ?_⟩
    have b := (he' i hi).2 hb
    unfold Network.Balanced at b ⊢
    rw [Ctrls.inflow_shut (Model.net _ _ _ _ _ _).orifices (c := c) hc, hR'] at b
    refine b.trans ?_
    simp only [moved]
    have q : (m.net geo' inp' wk cur co).orifices.Q x' c = orificeRel m geo' inp' wk cur c x' := rfl
    rw [q]
    show _ + _ + (_ + ((if m.Jdo c = i then _ else 0) - (if m.Juo c = i then _ else 0))) + _ + _ = _
    have e1 : (m.net geo' inp' wk cur co).links = R.links := rfl
    have e2 : (m.net geo' inp' wk cur co).pumps = R.pumps := rfl
    have e3 : (m.net geo' inp' wk cur co).weirs = R.weirs := rfl
    rw [e1, e2, e3]
    simp only [hR]
    ring
  refine gate_core R inp.dt ps.dt_pos sR wR (cs.Juo c hc) (cs.Jdo c hc) (fun y y' h1 h2 => ?_) hx hx'
  have s' : (m.oLin geo' inp' wk cur c).Signed :=
    orificeLin_signed _ ps.g_pos.le _
  have a := mul_le_mul_of_nonneg_left h1 s'.1
  have b := mul_le_mul_of_nonpos_left h2 s'.2
  simp only [orificeRel, Lin.eval]
  linarith

/-! ### What the relations do with the signal -/

theorem pumpLin_scale (old : Lin) (Q Hu Hd u : ℝ) (p : Pump) (A B : ℝ) :
    (pumpLin old Q Hu Hd u p).eval A B = u * (pumpLin old Q Hu Hd 1 p).eval A B := by
  have g : gammaP Q u p = u * gammaP Q 1 p := by
    simp only [gammaP, safeDivide_eq]; ring
  rw [C11_pump_no_stale old ⟨0, 0, 0⟩]
  rw [C11_pump_no_stale old ⟨0, 0, 0⟩ Q Hu Hd 1]
  simp only [pumpLin, Lin.eval, g]
  split_ifs <;> ring

theorem pumpLin_one_nonneg (old : Lin) (Q Hu Hd : ℝ) {p : Pump} (v : p.Valid) {A B : ℝ} (h : B - A ≤ p.a) :
    0 ≤ (pumpLin old Q Hu Hd 1 p).eval A B := by
  have g : 0 ≤ gammaP Q 1 p := by
    have := v.b_pos
    simp only [gammaP, safeDivide_eq]; positivity
  have h2 := pumpHead_le v Hu Hd
  rw [C11_pump_no_stale old ⟨0, 0, 0⟩]
  simp only [pumpLin, Lin.eval]
  split_ifs
  · have := mul_nonneg g (sub_nonneg.mpr h); simp; nlinarith
  · have := mul_nonneg g (sub_nonneg.mpr h2); simp; nlinarith
  all_goals simp
  all_goals nlinarith [mul_nonneg g (sub_nonneg.mpr h2), mul_nonneg g (sub_nonneg.mpr h)]

/-- **C161 (running a pump faster).** As long as the lift after the slower step is below the shut-off head, the faster
pump delivers no less, its sump is no higher, its outlet no lower. -/
theorem C161_pump (cs : m.Consistent) (ps : PhysicalStep m geo inp) (cw : CleanWork m wk.mats) {c : ℕ}
    (hc : c < m.n_p) (v : (m.pump c).Valid) {u' : ℝ} (hu : inp.u_p c ≤ u')
    (p : Pass m geo inp wk prev cur co x)
    (p' : Pass m geo { inp with u_p := upd inp.u_p c u' } wk prev cur co x')
    (lift : x (m.Jdp c) - x (m.Jup c) ≤ (m.pump c).a) :
    pumpRel m inp wk cur c x ≤ pumpRel m { inp with u_p := upd inp.u_p c u' } wk cur c x' ∧
      x' (m.Jup c) ≤ x (m.Jup c) ∧ x (m.Jdp c) ≤ x' (m.Jdp c) := by
  obtain ⟨h1, h2⟩ := C161_pump_iff cs ps cw hc ((ps.u_p c hc).trans hu) p p'
  have k : pumpRel m inp wk cur c x ≤ pumpRel m { inp with u_p := upd inp.u_p c u' } wk cur c x := by
    simp only [pumpRel, Model.pLin]
    have e : upd inp.u_p c u' c = u' := by simp [upd]
    rw [e, pumpLin_scale _ _ _ _ (inp.u_p c), pumpLin_scale _ _ _ _ u']
    exact mul_le_mul_of_nonneg_right hu (pumpLin_one_nonneg _ _ _ _ v lift)
  exact ⟨h1.2 k, h2 k⟩

/-- Relation of a weir at heads `A`, `B`, water on the upstream side at least as high. -/
theorem weirLin_forward (old : Lin) (Q : ℝ) {Hu Hd : ℝ} (u : ℝ) (w : Weir) (h : Hd ≤ Hu) (A B : ℝ) :
    (weirLin old Q Hu Hd u w).eval A B =
      if Hu ≤ w.crest u then 0
      else if w.crest u < Hd then gammaW Q (Hu - Hd) w * (A - B)
      else gammaW Q (Hu - w.crest u) w * (A - w.crest u) := by
  have c : w.z_w + w.z_inv + (1 - u) * w.y_max = w.crest u := rfl
  rw [C11_weir_no_stale old ⟨0, 0, 0⟩]
  simp only [weirLin, weirHead, omega, sgn, if_pos h, ge_iff_le, one_mul, sub_self, zero_mul, add_zero, zero_add,
    gt_iff_lt, c, Lin.eval]
  by_cases h1 : Hu ≤ w.crest u
  · simp [h1, not_lt.mpr h1]
  · have h1' := not_le.mp h1
    by_cases h2 : w.crest u < Hd
    · simp only [h1', h2, and_self, if_true, not_true, and_false, if_false, h1]
      rw [abs_of_nonneg (by linarith)]; ring
    · have e : Hu + (-w.z_inv - w.z_w - (1 - u) * w.y_max) = Hu - w.crest u := by rw [← c]; ring
      simp only [h1', h2, and_false, not_false_eq_true, and_true, if_true, not_true, if_false, h1, e]
      rw [abs_of_nonneg (by linarith), ← c]; ring

theorem gammaW_mono {Q H H' : ℝ} {w : Weir} (h1 : 0 ≤ w.Cwr * w.L) (h2 : 0 ≤ w.Cwt * w.s) (h0 : 0 ≤ H) (h : H ≤ H') :
    gammaW Q H w ≤ gammaW Q H' w := by
  simp only [gammaW, safeDivide_eq]
  refine div_le_div_of_nonneg_right ?_ (abs_nonneg _)
  unfold weirConv
  have a := mul_le_mul_of_nonneg_left h h1
  have b := mul_le_mul_of_nonneg_left (pow_le_pow_left₀ h0 h 2) h2
  have a0 := mul_nonneg h1 h0
  have b0 := mul_nonneg h2 (sq_nonneg H)
  exact pow_le_pow_left₀ (by linarith) (by linarith) 2

theorem gammaW_nonneg (Q H : ℝ) (w : Weir) : 0 ≤ gammaW Q H w := by
  simp only [gammaW, weirConv, safeDivide_eq]; positivity

/-- **C161 (lowering a weir in free flow).** With the water below the lowered crest on the receiving side, lowering the
crest passes no less water, the source side ends no higher, the receiving side no lower. -/
theorem C161_weir_free (cs : m.Consistent) (ps : PhysicalStep m geo inp) (cw : CleanWork m wk.mats) {c : ℕ}
    (hc : c < m.n_w) {u' : ℝ} (hu : inp.u_w c ≤ u') (hy : 0 ≤ (m.weir c).y_max)
    (h1 : 0 ≤ (m.weir c).Cwr * (m.weir c).L) (h2 : 0 ≤ (m.weir c).Cwt * (m.weir c).s)
    (p : Pass m geo inp wk prev cur co x)
    (p' : Pass m geo { inp with u_w := upd inp.u_w c u' } wk prev cur co x')
    (down : cur.H (m.Jdw c) ≤ cur.H (m.Juw c)) (free : cur.H (m.Jdw c) ≤ (m.weir c).crest u')
    (above : (m.weir c).crest (inp.u_w c) ≤ x (m.Juw c)) :
    weirRel m inp wk cur c x ≤ weirRel m { inp with u_w := upd inp.u_w c u' } wk cur c x' ∧
      x' (m.Juw c) ≤ x (m.Juw c) ∧ x (m.Jdw c) ≤ x' (m.Jdw c) := by
  obtain ⟨i1, i2⟩ := C161_weir_iff cs ps cw hc p p'
  have cr : (m.weir c).crest u' ≤ (m.weir c).crest (inp.u_w c) := by
    unfold Weir.crest
    have := mul_le_mul_of_nonneg_right hu hy
    linarith
  have k : weirRel m inp wk cur c x ≤ weirRel m { inp with u_w := upd inp.u_w c u' } wk cur c x := by
    simp only [weirRel, Model.wLin]
    have e : upd inp.u_w c u' c = u' := by simp [upd]
    rw [e, weirLin_forward _ _ _ _ down, weirLin_forward (wk.lw c) _ u' _ down, if_neg (not_lt.mpr free),
      if_neg (not_lt.mpr (free.trans cr))]
    have g0 := gammaW_nonneg (cur.Qw c) (cur.H (m.Juw c) - (m.weir c).crest u') (m.weir c)
    have r0 : 0 ≤ gammaW (cur.Qw c) (cur.H (m.Juw c) - (m.weir c).crest u') (m.weir c)
        * (x (m.Juw c) - (m.weir c).crest u') := mul_nonneg g0 (by linarith)
    split_ifs with a b b
    · exact le_rfl
    · exact r0
    · exact absurd (b.trans cr) a
    · exact mul_le_mul (gammaW_mono h1 h2 (by linarith [not_le.mp a]) (by linarith)) (by linarith) (by linarith) g0
  exact ⟨i1.2 k, i2 k⟩

/-- **C161 (a drowned weir).** With both waters above the crest, moving the crest of a weir below them changes
nothing in the step. -/
theorem C161_weir_drowned (cs : m.Consistent) (ps : PhysicalStep m geo inp) (cw : CleanWork m wk.mats) {c : ℕ}
    {u' : ℝ} (p : Pass m geo inp wk prev cur co x)
    (p' : Pass m geo { inp with u_w := upd inp.u_w c u' } wk prev cur co x')
    (down : cur.H (m.Jdw c) ≤ cur.H (m.Juw c)) (d1 : (m.weir c).crest (inp.u_w c) < cur.H (m.Jdw c))
    (d2 : (m.weir c).crest u' < cur.H (m.Jdw c)) : ∀ i, i < m.M → x' i = x i := by
  have w := wired (geo := geo) (inp := inp) (wk := wk) (cur := cur) (co := co) cs
  have he' := (solves_iff (m.net geo { inp with u_w := upd inp.u_w c u' } wk cur co) inp.dt wk.mats cw.mats (wired cs)
    prev.H inp.Q_in (inp.H_bc.getD cur.H) x').mp p'.solve
  have rel : ∀ (H : ℕ → ℝ) k, (m.net geo { inp with u_w := upd inp.u_w c u' } wk cur co).weirs.Q H k
      = (m.net geo inp wk cur co).weirs.Q H k := by
    intro H k
    show (m.wLin { inp with u_w := upd inp.u_w c u' } wk cur k).eval (H (m.Juw k)) (H (m.Jdw k))
      = (m.wLin inp wk cur k).eval (H (m.Juw k)) (H (m.Jdw k))
    by_cases hk : k = c
    · subst hk
      simp only [Model.wLin]
      have e : upd inp.u_w k u' k = u' := by simp [upd]
      rw [e, weirLin_forward _ _ _ _ down, weirLin_forward (wk.lw k) _ (inp.u_w k) _ down, if_pos d1, if_pos d2,
        if_neg (not_le.mpr (lt_of_lt_of_le d1 down)), if_neg (not_le.mpr (lt_of_lt_of_le d2 down))]
    · simp [Model.wLin, upd, hk]
  have s' : Solves m.M (m.lhs geo inp wk cur co) (m.rhs geo inp wk prev cur co) x' := by
    refine (solves_iff _ inp.dt wk.mats cw.mats w prev.H inp.Q_in (inp.H_bc.getD cur.H) x').mpr fun i hi =>
      ⟨(he' i hi).1, fun hb => ?_⟩
    have b := (he' i hi).2 hb
    unfold Network.Balanced Ctrls.inflow at b ⊢
    simp only [rel] at b
    exact b
  exact fun i hi => (C06_step cs ps cw p.coefs _).2 x' x s' p.solve i hi

/-- **C161, refuted for weirs.** The receiving water stands at the crest. Lowering the crest by any amount passes
less water in that step exactly if the receiving water rises in the step. -/
theorem C161_weir_passes_less (cs : m.Consistent) (ps : PhysicalStep m geo inp) (cw : CleanWork m wk.mats) {c : ℕ}
    (hc : c < m.n_w) {u' : ℝ} (p : Pass m geo inp wk prev cur co x)
    (p' : Pass m geo { inp with u_w := upd inp.u_w c u' } wk prev cur co x')
    (at_crest : cur.H (m.Jdw c) = (m.weir c).crest (inp.u_w c)) (lower : (m.weir c).crest u' < cur.H (m.Jdw c))
    (down : cur.H (m.Jdw c) < cur.H (m.Juw c)) (flows : cur.Qw c ≠ 0)
    (cap : (m.weir c).Cwr * (m.weir c).L * (cur.H (m.Juw c) - cur.H (m.Jdw c))
      + (m.weir c).Cwt * (m.weir c).s * (cur.H (m.Juw c) - cur.H (m.Jdw c)) ^ 2 ≠ 0) :
    weirRel m { inp with u_w := upd inp.u_w c u' } wk cur c x' < weirRel m inp wk cur c x ↔
      cur.H (m.Jdw c) < x (m.Jdw c) := by
  obtain ⟨i1, -⟩ := C161_weir_iff cs ps cw hc p p'
  rw [← not_le, i1]
  simp only [weirRel, Model.wLin]
  have e : upd inp.u_w c u' c = u' := by simp [upd]
  rw [e, weirLin_forward _ _ _ _ down.le, weirLin_forward (wk.lw c) _ u' _ down.le, if_pos lower,
    if_neg (not_le.mpr (lower.trans down)), ← at_crest, if_neg (not_le.mpr down), if_neg (lt_irrefl _), not_le]
  have g : 0 < gammaW (cur.Qw c) (cur.H (m.Juw c) - cur.H (m.Jdw c)) (m.weir c) := by
    simp only [gammaW, weirConv, safeDivide_eq]
    have := abs_pos.mpr flows
    positivity
  rw [mul_lt_mul_iff_right₀ g]
  constructor <;> intro h <;> linarith

/-- The other direction: a setting that passes less at the solved heads leaves the source no lower, the receiver no
higher. -/
theorem C161_weir_less (cs : m.Consistent) (ps : PhysicalStep m geo inp) (cw : CleanWork m wk.mats) {c : ℕ}
    (hc : c < m.n_w) {u' : ℝ} (p : Pass m geo inp wk prev cur co x)
    (p' : Pass m geo { inp with u_w := upd inp.u_w c u' } wk prev cur co x')
    (h : weirRel m { inp with u_w := upd inp.u_w c u' } wk cur c x' ≤ weirRel m inp wk cur c x) :
    x (m.Juw c) ≤ x' (m.Juw c) ∧ x' (m.Jdw c) ≤ x (m.Jdw c) := by
  have back : ({ { inp with u_w := upd inp.u_w c u' } with
      u_w := upd ({ inp with u_w := upd inp.u_w c u' } : Inputs).u_w c (inp.u_w c) } : Inputs) = inp := by
    cases inp
    simp only [Inputs.mk.injEq, true_and, and_true]
    funext k; unfold upd; split_ifs with e
    · rw [e]
    · rfl
  have ps' : PhysicalStep m geo { inp with u_w := upd inp.u_w c u' } := { ps with dt_pos := ps.dt_pos }
  obtain ⟨i1, i2⟩ := C161_weir_iff (u' := inp.u_w c) cs ps' cw hc p' (by rw [back]; exact p)
  rw [back] at i1 i2
  exact i2 (i1.1 h)

/-- **C161 (opening a submerged orifice).** With both waters above the opening, a larger area passes no less if the
step ends with the source side at least as high. -/
theorem C161_orifice (cs : m.Consistent) (ps : PhysicalStep m geo inp) (cw : CleanWork m wk.mats) {c : ℕ}
    (hc : c < m.n_o) {u' A' : ℝ} (hA : |geo.Ao c| ≤ |A'|) (ht : 0 ≤ (m.orifice c).tau * (m.orifice c).y_max)
    (u0 : 0 ≤ inp.u_o c) (hu : inp.u_o c ≤ u')
    (p : Pass m geo inp wk prev cur co x)
    (p' : Pass m { geo with Ao := upd geo.Ao c A' } { inp with u_o := upd inp.u_o c u' } wk prev cur co x')
    (down : cur.H (m.Jdo c) < cur.H (m.Juo c))
    (above : (m.orifice c).z_o + (m.orifice c).z_inv + (m.orifice c).tau * (m.orifice c).y_max * u' < cur.H (m.Jdo c))
    (still : x (m.Jdo c) ≤ x (m.Juo c)) :
    orificeRel m geo inp wk cur c x
        ≤ orificeRel m { geo with Ao := upd geo.Ao c A' } { inp with u_o := upd inp.u_o c u' } wk cur c x' ∧
      x' (m.Juo c) ≤ x (m.Juo c) ∧ x (m.Jdo c) ≤ x' (m.Jdo c) := by
  obtain ⟨i1, i2⟩ := C161_orifice_iff cs ps cw hc p p'
  have rel : ∀ (γ u : ℝ), 0 ≤ u → u ≤ u' → (orificeCoef (wk.lo c) γ (cur.H (m.Juo c)) (cur.H (m.Jdo c)) u
      (m.orifice c)).eval (x (m.Juo c)) (x (m.Jdo c)) = γ * (x (m.Juo c) - x (m.Jdo c)) := by
    intro γ u h0 hle
    have t := mul_le_mul_of_nonneg_left hle ht
    have t0 := mul_nonneg ht h0
    have c0 : (m.orifice c).z_o + (m.orifice c).z_inv + (m.orifice c).tau * (m.orifice c).y_max * u < cur.H (m.Juo c) := by
      linarith
    have c1 : (m.orifice c).z_o + (m.orifice c).z_inv + (m.orifice c).tau * (m.orifice c).y_max * u / 2
        < cur.H (m.Jdo c) := by linarith
    have c2 : ¬ cur.H (m.Juo c) ≤ cur.H (m.Jdo c) := not_le.mpr down
    simp only [orificeCoef, omega, sgn, if_pos down.le, ge_iff_le, one_mul, sub_self, zero_mul, add_zero, zero_add,
      gt_iff_lt, c0, c1, c2, true_and, not_true, false_and, and_false, or_self, if_true, if_false, Lin.eval]
    ring
  have k : orificeRel m geo inp wk cur c x
      ≤ orificeRel m { geo with Ao := upd geo.Ao c A' } { inp with u_o := upd inp.u_o c u' } wk cur c x := by
    simp only [orificeRel, Model.oLin, orificeLin]
    have e : upd inp.u_o c u' c = u' := by simp [upd]
    have e' : upd geo.Ao c A' c = A' := by simp [upd]
    rw [e, e', rel _ _ u0 hu, rel _ _ (u0.trans hu) le_rfl]
    refine mul_le_mul_of_nonneg_right ?_ (sub_nonneg.mpr still)
    simp only [gammaO, safeDivide_eq]
    refine div_le_div_of_nonneg_right ?_ (abs_nonneg _)
    have g0 := ps.g_pos
    exact mul_le_mul_of_nonneg_left (sq_le_sq.mpr hA) (by positivity)
  exact ⟨i1.2 k, i2 k⟩

/-- **C161 (reported heads).** Clipping keeps the order of the heads. -/
theorem C161_reported {i : ℕ} (h : x i ≤ x' i) (inp' : Inputs) (geo' : Geo) :
    (m.advance geo inp wk cur co x).H i ≤ (m.advance geo' inp' wk cur co x').H i :=
  min_le_min_right _ (max_le_max_right _ h)

/-! ### Concrete cases -/

/-- The pump of the still pond is switched on: the sump falls, the outlet rises. -/
example : ∃ co x x', Pass (exModel false) exGeo exInp exWork exStill exStill co x ∧
    Pass (exModel false) exGeo { exInp with u_p := upd exInp.u_p 0 1 } exWork exStill exStill co x' ∧
    x' 0 ≤ x 0 ∧ x 1 ≤ x' 1 := by
  have C := exConsistent false
  have P := exPhysical false
  have W := exClean false
  obtain ⟨co, x, p⟩ := C06_step_exists (prev := exStill) (cur := exStill) C P W (fun _ _ => Or.inl rfl)
  have P' : PhysicalStep (exModel false) exGeo { exInp with u_p := upd exInp.u_p 0 1 } := by
    refine { P with u_p := fun k hk => ?_, dt_pos := P.dt_pos }
    show 0 ≤ upd exInp.u_p 0 1 k
    unfold upd exInp; split_ifs <;> norm_num
  obtain ⟨x', hx'⟩ := (C06_step (inp := { exInp with u_p := upd exInp.u_p 0 1 }) C P' W
    (co := co) (prev := exStill) (cur := exStill) p.coefs
    ((exModel false).rhs exGeo { exInp with u_p := upd exInp.u_p 0 1 } exWork exStill exStill co)).1
  have p' : Pass (exModel false) exGeo { exInp with u_p := upd exInp.u_p 0 1 } exWork exStill exStill co x' :=
    ⟨p.coefs, hx'⟩
  have st := C14_still_water_partial C P W (exBedOk false) (exInputsOk false) (exStillOk false) (exStillOk false) p
  have hx : ∀ j, j < 2 → x j = 5 := by
    intro j hj
    have h := st.H j hj
    simp only [Model.advance, clipHead, exModel] at h
    rcases le_total (x j) 0 with h1 | h1
    · rw [max_eq_right h1, min_eq_left (by norm_num)] at h; norm_num at h
    · rw [max_eq_left h1] at h
      rcases le_total (x j) (0 + 10) with h2 | h2
      · rwa [min_eq_left h2] at h
      · rw [min_eq_right h2] at h; norm_num at h
  have r := C161_pump C P W (c := 0) (by norm_num [exModel]) (by constructor <;> norm_num [exModel]) (u' := 1)
    (by norm_num [exInp]) p p' (by
      show x 1 - x 0 ≤ 5
      rw [hx 0 (by norm_num), hx 1 (by norm_num)]; norm_num)
  exact ⟨co, x, x', p, p', r.2⟩

/-- Water at the raised crest on the receiving side, whose fixed head rises by one in the step. -/
noncomputable def gateInp : Inputs := { exInp with u_w := fun _ => 0, H_bc := some fun _ => 3 }

/-- Heads 5 and 2, one unit of flow over the weir. -/
noncomputable def gateCur : Hyd := { exStill with H := fun j => if j = 0 then 5 else 2, Qw := fun _ => 1 }

/-- **C161, refuted.** The two superjunctions of the example, the second one fixed. Lowering the weir from crest 2 to
crest 1 makes less water pass and leaves the source side higher. -/
theorem C161_lowered_weir_passes_less : ∃ co x x',
    Pass (exModel true) exGeo gateInp exWork gateCur gateCur co x ∧
    Pass (exModel true) exGeo { gateInp with u_w := upd gateInp.u_w 0 1 } exWork gateCur gateCur co x' ∧
    ((exModel true).weir 0).crest (gateInp.u_w 0) = 2 ∧ ((exModel true).weir 0).crest 1 = 1 ∧
    weirRel (exModel true) { gateInp with u_w := upd gateInp.u_w 0 1 } exWork gateCur 0 x'
      < weirRel (exModel true) gateInp exWork gateCur 0 x ∧ x 0 < x' 0 := by
  have C := exConsistent true
  have P : PhysicalStep (exModel true) exGeo gateInp := by
    constructor <;> intros <;> norm_num [exModel, exGeo, exInp, gateInp]
  have P' : PhysicalStep (exModel true) exGeo { gateInp with u_w := upd gateInp.u_w 0 1 } := { P with dt_pos := P.dt_pos }
  have W := exClean true
  obtain ⟨co, x, p⟩ := C06_step_exists (prev := gateCur) (cur := gateCur) C P W (fun _ _ => Or.inl rfl)
  obtain ⟨x', hx'⟩ := (C06_step (inp := { gateInp with u_w := upd gateInp.u_w 0 1 }) C P' W
    (co := co) (prev := gateCur) (cur := gateCur) p.coefs
    ((exModel true).rhs exGeo { gateInp with u_w := upd gateInp.u_w 0 1 } exWork gateCur gateCur co)).1
  have p' : Pass (exModel true) exGeo { gateInp with u_w := upd gateInp.u_w 0 1 } exWork gateCur gateCur co x' :=
    ⟨p.coefs, hx'⟩
  have h3 : x 1 = 3 := by
    have he := (solves_iff ((exModel true).net exGeo gateInp exWork gateCur co) gateInp.dt exWork.mats W.mats
      (wired C) gateCur.H gateInp.Q_in (gateInp.H_bc.getD gateCur.H) x).mp p.solve
    have := (he 1 (by norm_num [Model.net, exModel])).1 rfl
    simpa [gateInp] using this
  refine ⟨co, x, x', p, p', by norm_num [exModel, gateInp, Weir.crest], by norm_num [exModel, Weir.crest], ?_⟩
  refine (fun (a : _ ∧ (_ → _)) => ⟨a.1, a.2 a.1⟩) ⟨?_, fun less => ?_⟩
  rotate_left
  · have le := (C161_weir_less C P W (c := 0) (by norm_num [exModel]) p p' less.le).1
    refine lt_of_le_of_ne le fun e => ?_
    have he := (solves_iff ((exModel true).net exGeo gateInp exWork gateCur co) gateInp.dt exWork.mats W.mats
      (wired C) gateCur.H gateInp.Q_in (gateInp.H_bc.getD gateCur.H) x).mp p.solve
    have he' := (solves_iff ((exModel true).net exGeo { gateInp with u_w := upd gateInp.u_w 0 1 } exWork gateCur co)
      gateInp.dt exWork.mats W.mats (wired C) gateCur.H gateInp.Q_in (gateInp.H_bc.getD gateCur.H) x').mp p'.solve
    have h3' : x' 1 = 3 := by
      have := (he' 1 (by norm_num [Model.net, exModel])).1 rfl
      simpa [gateInp] using this
    have b := (he 0 (by norm_num [Model.net, exModel])).2 rfl
    have b' := (he' 0 (by norm_num [Model.net, exModel])).2 rfl
    refine less.ne ?_
    have lk : ((exModel true).net exGeo gateInp exWork gateCur co).links.inflow x' 0
        = ((exModel true).net exGeo gateInp exWork gateCur co).links.inflow x 0 :=
      Links.inflow_congr _ (fun _ => e.symm) (fun _ => h3'.trans h3.symm) 0
    have os : ((exModel true).net exGeo gateInp exWork gateCur co).orifices.inflow x' 0
        = ((exModel true).net exGeo gateInp exWork gateCur co).orifices.inflow x 0 :=
      Ctrls.inflow_congr _ (fun _ => e.symm) (fun _ => h3'.trans h3.symm) 0
    have pu : ((exModel true).net exGeo gateInp exWork gateCur co).pumps.inflow x' 0
        = ((exModel true).net exGeo gateInp exWork gateCur co).pumps.inflow x 0 :=
      Ctrls.inflow_congr _ (fun _ => e.symm) (fun _ => h3'.trans h3.symm) 0
    have we : ∀ (i : Inputs) (y : ℕ → ℝ), ((exModel true).net exGeo i exWork gateCur co).weirs.inflow y 0
        = -weirRel (exModel true) i exWork gateCur 0 y := by
      intro i y
      have n : ((exModel true).net exGeo i exWork gateCur co).weirs.n = 1 := rfl
      rw [Ctrls.inflow, n, Finset.sum_range_one,
        if_neg (show ¬ ((exModel true).net exGeo i exWork gateCur co).weirs.Jd 0 = 0 from Nat.one_ne_zero),
        if_pos (show ((exModel true).net exGeo i exWork gateCur co).weirs.Ju 0 = 0 from rfl), zero_sub]
      rfl
    unfold Network.Balanced at b b'
    rw [we] at b b'
    have lk' : ((exModel true).net exGeo { gateInp with u_w := upd gateInp.u_w 0 1 } exWork gateCur co).links.inflow x' 0
        = ((exModel true).net exGeo gateInp exWork gateCur co).links.inflow x' 0 := rfl
    have os' : ((exModel true).net exGeo { gateInp with u_w := upd gateInp.u_w 0 1 } exWork gateCur co).orifices.inflow x' 0
        = ((exModel true).net exGeo gateInp exWork gateCur co).orifices.inflow x' 0 := rfl
    have pu' : ((exModel true).net exGeo { gateInp with u_w := upd gateInp.u_w 0 1 } exWork gateCur co).pumps.inflow x' 0
        = ((exModel true).net exGeo gateInp exWork gateCur co).pumps.inflow x' 0 := rfl
    have st : ((exModel true).net exGeo { gateInp with u_w := upd gateInp.u_w 0 1 } exWork gateCur co).As 0
        = ((exModel true).net exGeo gateInp exWork gateCur co).As 0 := rfl
    have xi : ((exModel true).net exGeo { gateInp with u_w := upd gateInp.u_w 0 1 } exWork gateCur co).links.xiSum 0
        = ((exModel true).net exGeo gateInp exWork gateCur co).links.xiSum 0 := rfl
    rw [lk', os', pu', st, xi, lk, os, pu, ← e] at b'
    linarith
  refine (C161_weir_passes_less C P W (c := 0) (by norm_num [exModel]) p p' ?_ ?_ ?_ ?_ ?_).mpr ?_
  · norm_num [exModel, gateCur, gateInp, Weir.crest]
  · norm_num [exModel, gateCur, gateInp, Weir.crest]
  · norm_num [exModel, gateCur]
  · norm_num [gateCur]
  · norm_num [exModel, gateCur]
  · show gateCur.H 1 < x 1
    rw [h3]; norm_num [gateCur]

end

end Pipedream.Step
