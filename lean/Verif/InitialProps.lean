import Verif.InitialModel
import Verif.FlowBoundProps
import Verif.WholeProps
import Verif.RetryProps

/-!
# C147: a new model starts in the state it was given

The constructor takes a hidden step of 1e-6 s. A given state is kept exactly when it is a steady state of
the network without inflows and with closed controls. If the depths in the pipes fit the heads at their ends,
heads move by what the flows carry in a millionth of a second. If they do not, the mismatch of volume passes
through the ends of the superlink within the hidden step: the end flows are a million times that volume.
-/

namespace Pipedream.Step

open Pipedream.Sweep Pipedream.Link Pipedream.Superlink Pipedream.Control Pipedream.Network
open Pipedream.Geometry Pipedream.Interp

variable {m : Model} {P : Plan} {gv : Given}

/-- No orifice is circular or elliptical. -/
def NoRound (m : Model) (P : Plan) : Prop := ∀ a, a < m.n_o → P.oShape a ≠ .circular ∧ P.oShape a ≠ .elliptical

/-! ### Lemmas -/

theorem hiddenGood (nr : NoRound m P) : GoodInputs m P hiddenInputs :=
  ⟨by norm_num [hiddenInputs], fun _ _ => le_rfl, fun a ha h => by
    rcases h with h | h
    · exact absurd h (nr a ha).1
    · exact absurd h (nr a ha).2⟩

theorem freshClean (m : Model) : CleanWork m freshWork.mats :=
  ⟨⟨fun _ _ _ _ => rfl⟩, ⟨fun _ _ _ _ => rfl, fun _ _ => rfl⟩, ⟨fun _ _ _ _ => rfl, fun _ _ => rfl⟩,
    ⟨fun _ _ _ _ => rfl, fun _ _ => rfl⟩⟩

theorem blankGood (wet : ∀ I, m.min_depth ≤ gv.hJ I) : GoodObj m (m.blank gv) := ⟨freshClean m, wet⟩

/-! ### C147 -/

/-- **C147 (construction succeeds).** A sound model without round orifices and with wet pipes is constructed;
the object keeps the given state as its saved state, so that `load_state()` returns to it. -/
theorem C147_builds (sd : Sound m P) (nr : NoRound m P) (wet : ∀ I, m.min_depth ≤ gv.hJ I) :
    ∃ o', Built m P gv o' ∧ GoodObj m o' ∧ o'.saved = m.start gv := by
  obtain ⟨o', h⟩ := C105_step_succeeds sd (hiddenGood nr) true (blankGood wet)
  refine ⟨o', h, (blankGood wet).next sd.cons h, ?_⟩
  obtain ⟨Ao, co, x, -, -, rfl⟩ := h
  rfl

/-- **C147 (round orifices).** A model with a circular or elliptical orifice cannot be constructed: the
hidden step closes all orifices, and closing a round one raises. -/
theorem C147_round_orifice {a : ℕ} (ha : a < m.n_o) (hr : P.oShape a = .circular ∨ P.oShape a = .elliptical) :
    ¬ ∃ o', Built m P gv o' := by
  rintro ⟨o', Ao, co, x, hA, -, -⟩
  have h := hA a ha
  have hz : hiddenInputs.u_o a = 0 := rfl
  obtain ⟨c1, c2⟩ := C22_closed_orifice_raises ((m.blank gv).hid.Ao a) (P.oGP a) (m.orificeDepth (m.blank gv).cur a)
  rcases hr with hr | hr
  · rw [hz, hr, c1] at h; cases h
  · rw [hz, hr, c2] at h; cases h

/-- **C147 (what `load_state()` returns to).** The state the new object saved, table by table: heads of the
given depths but at least the minimum depth above the inverts, depths and flows as given, end flows those of
the first and last link, controls without flow. -/
theorem C147_saved {o' : Obj} (h : Built m P gv o') :
    (∀ j, o'.saved.H j = max (gv.h0 j + m.z_inv j) (m.z_inv j + m.min_depth)) ∧ o'.saved.h = gv.hJ ∧
      o'.saved.Q = gv.Q0 ∧ (∀ k, o'.saved.Qu k = gv.Q0 (m.ix.i_1k k)) ∧
      (∀ k, o'.saved.Qd k = gv.Q0 (m.ix.i_1k k + m.ix.nk k - 1)) ∧
      (∀ a, o'.saved.Qo a = 0) ∧ (∀ a, o'.saved.Qw a = 0) ∧ ∀ a, o'.saved.Qp a = 0 := by
  obtain ⟨Ao, co, x, -, -, rfl⟩ := h
  exact ⟨fun _ => rfl, rfl, rfl, fun _ => rfl, fun _ => rfl, fun _ => rfl, fun _ => rfl, fun _ => rfl⟩

/-- **C147 (areas of floodplain orifices).** An orifice of this shape has no formula for its area: it keeps the
area of the table through construction. -/
theorem C147_flood_area {o' : Obj} (h : Built m P gv o') {a : ℕ} (ha : a < m.n_o) (hs : P.oShape a = .floodplain) :
    o'.hid.Ao a = gv.Ao a := by
  obtain ⟨Ao, co, x, hA, -, rfl⟩ := h
  have e := hA a ha
  rw [hs] at e
  show upTo m.n_o Ao a = gv.Ao a
  rw [upTo_of_lt _ ha]
  exact (Except.ok.inj e).symm

/-- What is known of the object: it comes from one pass with the geometry of the given state. -/
theorem built_pass {o' : Obj} (h : Built m P gv o') : ∃ Ao co x,
    Pass m (m.geoOf P (Hidden.fresh gv.Ao) Ao (m.start gv)) hiddenInputs freshWork (m.start gv) (m.start gv) co x ∧
    o'.cur = m.advance (m.geoOf P (Hidden.fresh gv.Ao) Ao (m.start gv)) hiddenInputs freshWork (m.start gv) co x := by
  obtain ⟨Ao, co, x, -, p, rfl⟩ := h
  exact ⟨Ao, co, x, p, rfl⟩

/-- **C147 (heads kept at fixed superjunctions).** -/
theorem C147_fixed (c : m.Consistent) {o' : Obj} (h : Built m P gv o') {i : ℕ} (hi : i < m.M) (hb : m.bc i = true)
    (hmd : 0 ≤ m.min_depth) :
    o'.cur.H i = min ((m.start gv).H i) (m.z_inv i + m.max_depth i) := by
  obtain ⟨Ao, co, x, p, e⟩ := built_pass h
  rw [e, C08_step c (freshClean m) p i hi hb]
  show min (max ((m.start gv).H i) _) _ = _
  rw [max_eq_left]
  exact le_trans (by linarith) (le_max_right _ _)

/-- **C147 (kept exactly).** A given state within the bounds is the state the new object starts in if and only
if it is steady without inflows and with closed controls. -/
theorem C147_kept_iff (sd : Sound m P) (st : StartTables m) (nr : NoRound m P) (wet : ∀ I, m.min_depth ≤ gv.hJ I)
    (he : m.end_method = .b) {Ao : ℕ → ℝ} {co : Coef ℝ} {x : ℕ → ℝ}
    (p : Pass m (m.geoOf P (Hidden.fresh gv.Ao) Ao (m.start gv)) hiddenInputs freshWork (m.start gv) (m.start gv) co x)
    (pc : ProperControls m (m.geoOf P (Hidden.fresh gv.Ao) Ao (m.start gv)) hiddenInputs (m.start gv))
    (ins : Inside m (m.start gv)) :
    SameState m (m.start gv)
        (m.advance (m.geoOf P (Hidden.fresh gv.Ao) Ao (m.start gv)) hiddenInputs freshWork (m.start gv) co x) ↔
      Steady m (m.geoOf P (Hidden.fresh gv.Ao) Ao (m.start gv)) hiddenInputs (m.start gv) :=
  C100_reproduced_iff sd.cons st (physical_geoOf sd (hiddenGood nr) _ Ao wet) (freshClean m) he pc ins
    (SameState.refl m _) p

section pass
variable {geo : Geo} {co : Coef ℝ} {x : ℕ → ℝ}

/-- **C147 (mismatch at the ends).** In the hidden step the flow into the first junction of a superlink is the
flow of its first link plus a million times the volume the junction is made to take up: its surface times the
difference between the depth the step sets and the depth that was given. Likewise at the downstream end. -/
theorem C147_end_flow (c : m.Consistent) (st : StartTables m) (ps : PhysicalStep m geo hiddenInputs)
    (he : m.end_method = .b) (p : Pass m geo hiddenInputs freshWork (m.start gv) (m.start gv) co x)
    (uc : Unclipped m x (m.advance geo hiddenInputs freshWork (m.start gv) co x)
      (endDepthU m geo freshWork (m.start gv) co (m.advance geo hiddenInputs freshWork (m.start gv) co x).H)
      (endDepthD m geo freshWork (m.start gv) co (m.advance geo hiddenInputs freshWork (m.start gv) co x).H))
    {k : ℕ} (hk : k < m.ix.NK) :
    (m.advance geo hiddenInputs freshWork (m.start gv) co x).Qu k
      = (m.advance geo hiddenInputs freshWork (m.start gv) co x).Q (m.ix.i_1k k)
        + 1000000 * (surfaceArea m geo k 0
          * ((m.advance geo hiddenInputs freshWork (m.start gv) co x).h (m.ix.I_1k k) - gv.hJ (m.ix.I_1k k))) ∧
    (m.advance geo hiddenInputs freshWork (m.start gv) co x).Qd k
      = (m.advance geo hiddenInputs freshWork (m.start gv) co x).Q (m.ix.i_1k k + m.ix.nk k - 1)
        - 1000000 * (surfaceArea m geo k (m.ix.nk k)
          * ((m.advance geo hiddenInputs freshWork (m.start gv) co x).h (m.ix.I_1k k + m.ix.nk k)
            - gv.hJ (m.ix.I_1k k + m.ix.nk k))) := by
  have n1 := c.layout.pos k hk
  have S := ((saintVenant_iff c st ps p.coefs _ hk).1 (C01_step c ps p he uc hk)).2
  have s0 := S 0 (by omega)
  have sn := S (m.ix.nk k) le_rfl
  simp only [ContinuityEq, arriving, leaving, if_true, add_zero, hiddenInputs,
    show ¬ (0 = m.ix.nk k) by omega, show ¬ (m.ix.nk k = 0) by omega, if_false] at s0 sn
  simp only [show ∀ t : ℝ, t / (1 / 1000000) = t * 1000000 from fun t => by ring] at s0 sn
  have e0 : (m.start gv).h (m.ix.I_1k k) = gv.hJ (m.ix.I_1k k) := rfl
  have en : (m.start gv).h (m.ix.I_1k k + m.ix.nk k) = gv.hJ (m.ix.I_1k k + m.ix.nk k) := rfl
  rw [e0] at s0
  rw [en] at sn
  simp only [hiddenInputs]
  exact ⟨by linear_combination -s0, by linear_combination sn⟩

/-- **C147 (given end depths are ignored).** The depth set at an end is the head above the invert and the loss
of the given flow; the depth given there does not matter. For a pipe at rest: the head above the invert, and a
million times the missing volume enters through the end. -/
theorem C147_pipe_at_rest (c : m.Consistent) (st : StartTables m) (ps : PhysicalStep m geo hiddenInputs)
    (he : m.end_method = .b) (p : Pass m geo hiddenInputs freshWork (m.start gv) (m.start gv) co x)
    (uc : Unclipped m x (m.advance geo hiddenInputs freshWork (m.start gv) co x)
      (endDepthU m geo freshWork (m.start gv) co (m.advance geo hiddenInputs freshWork (m.start gv) co x).H)
      (endDepthD m geo freshWork (m.start gv) co (m.advance geo hiddenInputs freshWork (m.start gv) co x).H))
    {k : ℕ} (hk : k < m.ix.NK) (hu : 0 < geo.A_u k) (hd : 0 < geo.A_d k)
    (q0 : gv.Q0 (m.ix.i_1k k) = 0) (z0 : m.z_uk k ≤ (m.start gv).H (m.Ju k)) :
    (m.advance geo hiddenInputs freshWork (m.start gv) co x).Qu k
      = (m.advance geo hiddenInputs freshWork (m.start gv) co x).Q (m.ix.i_1k k)
        + 1000000 * (surfaceArea m geo k 0
          * ((m.advance geo hiddenInputs freshWork (m.start gv) co x).H (m.Ju k) - m.z_uk k
            - gv.hJ (m.ix.I_1k k))) := by
  rw [(C147_end_flow c st ps he p uc hk).1, (C04_reported_end_depths c uc hk).1, (C04_end_depths ps hu hd).1, if_pos z0]
  have : (m.start gv).Qu k = 0 := q0
  rw [this]
  simp

/-- **C147 (the step after it).** A large end flow throttles the next step: with an entrance loss and a depth
of at least the minimum, the next inflow times the last one is at most what the head above the invert allows. -/
theorem C147_throttled {inp : Inputs} {wk : Work} {cur : Hyd} (_c : m.Consistent) (ps : PhysicalStep m geo inp)
    (hmd : 0 ≤ m.min_depth)
    (uc : Unclipped m x (m.advance geo inp wk cur co x)
      (endDepthU m geo wk cur co (m.advance geo inp wk cur co x).H)
      (endDepthD m geo wk cur co (m.advance geo inp wk cur co x).H))
    {k : ℕ} (hk : k < m.ix.NK) (hu : 0 < geo.A_u k) (hd : 0 < geo.A_d k) (hC : 0 < m.C_uk k)
    (hq : cur.Qu k ≠ 0) (z0 : m.z_uk k ≤ cur.H (m.Ju k)) :
    (m.advance geo inp wk cur co x).Qu k
      ≤ 2 * m.g * geo.A_u k ^ 2 * ((m.advance geo inp wk cur co x).H (m.Ju k) - m.z_uk k)
        / (m.C_uk k * |cur.Qu k|) := by
  have h1 := (uc.ends k hk).1
  rw [(C04_end_depths ps hu hd).1, if_pos z0] at h1
  have g0 := ps.g_pos
  have hq' : 0 < |cur.Qu k| := abs_pos.mpr hq
  rw [le_div_iff₀ (by positivity)]
  have h2 : |cur.Qu k| * m.C_uk k / (2 * m.g * geo.A_u k ^ 2) * (m.advance geo inp wk cur co x).Qu k
      ≤ (m.advance geo inp wk cur co x).H (m.Ju k) - m.z_uk k := by linarith
  have h3 : 0 < 2 * m.g * geo.A_u k ^ 2 := by positivity
  rw [div_mul_eq_mul_div, div_le_iff₀ h3] at h2
  linarith

/-- **C147 (given states which fit).** If the given depths fit the heads at the ends of every superlink, the
heads of the new object differ from the given ones, in volume and all superjunctions together, by at most what
the flows bounded by `B` (and open controls) carry in a millionth of a second. -/
theorem C147_heads_partial (c : m.Consistent) (st : StartTables m) (ps : PhysicalStep m geo hiddenInputs)
    (he : m.end_method = .b) (p : Pass m geo hiddenInputs freshWork (m.start gv) (m.start gv) co x)
    (hmd : 0 ≤ m.min_depth)
    (hlim : ∀ j, j < m.M → (m.start gv).H j ≤ m.z_inv j + m.max_depth j)
    (hu : ∀ k, k < m.ix.NK → 0 < geo.A_u k) (hd : ∀ k, k < m.ix.NK → 0 < geo.A_d k)
    (ft : ∀ k, k < m.ix.NK → FitsEnds m geo (m.start gv) k)
    (wide : ∀ k, k < m.ix.NK → ∀ j, 1 ≤ j → j < m.ix.nk k → 0 < surfaceArea m geo k j)
    {B : ℕ → ℝ} (bd : ∀ k, k < m.ix.NK → Bounded m geo hiddenInputs (m.start gv) k 0 0 (B k))
    (ho : m.n_o = 0) (hw : m.n_w = 0) (hp : m.n_p = 0) :
    ∑ j ∈ free m, surfaceAt m geo (m.start gv) j
        * |(m.advance geo hiddenInputs freshWork (m.start gv) co x).H j - (m.start gv).H j|
      ≤ 1 / 1000000 * (2 * ∑ k ∈ Finset.range m.ix.NK, B k) := by
  have h := C148_heads c st ps (freshClean m) he p (fun _ _ _ => rfl)
    (fun j hj => ⟨le_trans (by linarith) (le_max_right _ _), hlim j hj⟩) hu hd ft (fun _ _ _ _ => rfl) wide bd
  have z : ∀ j, |hiddenInputs.Q_in j
      + (m.net geo hiddenInputs freshWork (m.start gv) co).orifices.inflow (m.start gv).H j
      + (m.net geo hiddenInputs freshWork (m.start gv) co).weirs.inflow (m.start gv).H j
      + (m.net geo hiddenInputs freshWork (m.start gv) co).pumps.inflow (m.start gv).H j| = 0 := by
    intro j
    have e1 : hiddenInputs.Q_in j = 0 := rfl
    simp [e1, Ctrls.inflow, Model.net, ho, hw, hp]
  rw [Finset.sum_congr rfl (fun j _ => z j), Finset.sum_const_zero, add_zero] at h
  exact h

end pass

/-! ### The counterexample -/

/-- One level link of length 10 between two superjunctions, with fixed heads or not. -/
noncomputable def inModel (fx : Bool) : Model :=
  { reModel with bc := fun _ => fx, z_uk := fun _ => 0, z_dk := fun _ => 0, dx_uk := fun _ => 0, dx_dk := fun _ => 0 }

/-- An open rectangular channel of height 2 and width 1. -/
noncomputable def inPlan : Plan := { rePlan with sec := fun _ => .regular .rectOpen ⟨2, 1, 0, 0, 0, 0, 0⟩ }

/-- Water of depth 1 in the superjunctions, of depth `d` in the pipe, everything at rest. -/
noncomputable def inGiven (d : ℝ) : Given := ⟨fun _ => 1, fun _ => d, fun _ => 0, fun _ => 0⟩

theorem inConsistent (fx : Bool) : (inModel fx).Consistent := by
  refine ⟨⟨fun _ _ => ?_, fun k k' h h' hk => ?_, fun k k' h h' hk => ?_⟩, ?_, fun k hk => ⟨?_, ?_, ?_, ?_, ?_⟩,
    ?_, ?_, ?_, ?_, ?_, ?_, ?_, ?_⟩ <;> simp [inModel, reModel] at * <;> try omega

theorem inSound (fx : Bool) : Sound (inModel fx) inPlan := by
  refine ⟨inConsistent fx, ?_, ?_, ?_, ?_, ?_, ?_, ?_, ?_, ?_, ?_, ?_, ?_, ?_, ?_, ?_, ?_⟩
  all_goals first
    | (intros; simp [inModel, inPlan, reModel, rePlan, Section.Usable, Wettable, Valid, Storage.Usable]; done)
    | (norm_num [inModel, inPlan, reModel, rePlan, Section.Usable, Wettable, Valid, Storage.Usable])

theorem inTables (fx : Bool) : StartTables (inModel fx) := by
  refine ⟨fun k hk j hj => ?_, fun k hk j hj => ?_⟩ <;> simp [inModel, reModel] at *

theorem inNoRound (fx : Bool) : NoRound (inModel fx) inPlan := fun a ha => by simp [inModel, reModel] at ha

theorem inStart (fx : Bool) (d : ℝ) (j : ℕ) : ((inModel fx).start (inGiven d)).H j = 1 := by
  norm_num [Model.start, inModel, reModel, inGiven]

/-- **C147, refuted.** Level water at rest, heads fixed at 1 m above the inverts, but depth `d` given in the
pipe: the model is constructed, and reports an inflow of `5000000 (1 - d)` cubic metres per second. -/
theorem C147_not_kept {d : ℝ} (hd : 1 / 100 ≤ d) :
    ∃ o', Built (inModel true) inPlan (inGiven d) o' ∧ o'.cur.Qu 0 = 5000000 * (1 - d) := by
  have wet : ∀ I, (inModel true).min_depth ≤ (inGiven d).hJ I := fun _ => by simpa [inModel, reModel, inGiven] using hd
  obtain ⟨o', hb, -, -⟩ := C147_builds (gv := inGiven d) (inSound true) (inNoRound true) wet
  refine ⟨o', hb, ?_⟩
  have fx : ∀ i, i < 2 → o'.cur.H i = 1 := by
    intro i hi
    rw [C147_fixed (inConsistent true) hb (i := i) hi rfl (by norm_num [inModel, reModel]), inStart]
    norm_num [inModel, reModel]
  obtain ⟨Ao, co, x, p, e⟩ := built_pass hb
  have ps := physical_geoOf (inSound true) (hiddenGood (inNoRound true)) (Hidden.fresh (inGiven d).Ao) Ao
    (s := (inModel true).start (inGiven d)) wet
  generalize hgeo : (inModel true).geoOf inPlan (Hidden.fresh (inGiven d).Ao) Ao ((inModel true).start (inGiven d)) = geo at p e ps
  have au : 0 < geo.A_u 0 := by
    rw [← hgeo]
    show 0 < upTo 1 _ 0
    rw [upTo_of_lt _ (by norm_num)]
    refine Section.A_pos (md := (inModel true).min_depth) (by norm_num [inModel, reModel])
      ((inSound true).sec 0 (by norm_num [inModel, reModel])) (wet 0) ?_
    simp only [Hidden.fresh, inStart]
    norm_num [inModel, reModel]
  have ad : 0 < geo.A_d 0 := by
    rw [← hgeo]
    show 0 < upTo 1 _ 0
    rw [upTo_of_lt _ (by norm_num)]
    refine Section.A_pos (md := (inModel true).min_depth) (by norm_num [inModel, reModel])
      ((inSound true).sec 0 (by norm_num [inModel, reModel])) (wet 0) ?_
    simp only [Hidden.fresh, inStart]
    norm_num [inModel, reModel]
  have hk : 0 < (inModel true).ix.NK := by norm_num [inModel, reModel]
  rw [e] at fx ⊢
  set nx := (inModel true).advance geo hiddenInputs freshWork ((inModel true).start (inGiven d)) co x with hnx
  have ends := C04_end_depths (wk := freshWork) (cur := (inModel true).start (inGiven d)) (co := co) (x := x) ps au ad
  rw [← hnx] at ends
  have j0 : (inModel true).Ju 0 = 0 := rfl
  have j1 : (inModel true).Jd 0 = 1 := rfl
  have zu : (inModel true).z_uk 0 = 0 := rfl
  have zd : (inModel true).z_dk 0 = 0 := rfl
  have q0 : ((inModel true).start (inGiven d)).Qu 0 = 0 := rfl
  have q1 : ((inModel true).start (inGiven d)).Qd 0 = 0 := rfl
  simp only [j0, j1, zu, zd, q0, q1, inStart, fx 0 (by norm_num), fx 1 (by norm_num)] at ends
  norm_num at ends
  have xlim : ∀ j, j < (inModel true).M → (inModel true).z_inv j ≤ x j ∧ x j ≤ (inModel true).z_inv j + (inModel true).max_depth j := by
    intro j hj
    have h := fx j hj
    rw [hnx] at h
    simp only [Model.advance, clipHead] at h
    have z1 : (inModel true).z_inv j = 0 := rfl
    have z2 : (inModel true).max_depth j = 10 := rfl
    rw [z1, z2] at h ⊢
    rcases le_total (x j) 0 with h1 | h1
    · rw [max_eq_right h1, min_eq_left (by norm_num)] at h; norm_num at h
    · rw [max_eq_left h1] at h
      refine ⟨h1, ?_⟩
      by_contra h2
      rw [min_eq_right (by linarith)] at h
      norm_num at h
  have uc : Unclipped (inModel true) x nx (endDepthU (inModel true) geo freshWork ((inModel true).start (inGiven d)) co nx.H)
      (endDepthD (inModel true) geo freshWork ((inModel true).start (inGiven d)) co nx.H) := by
    refine ⟨xlim, fun k hk => ?_, fun k hk j h1 h2 => ?_⟩
    · have : k = 0 := by simp only [inModel, reModel] at hk; omega
      subst this
      rw [ends.1, ends.2]
      norm_num [inModel, reModel]
    · simp only [inModel, reModel] at h2; omega
  have fl := C147_pipe_at_rest (inConsistent true) (inTables true) ps rfl p uc hk au ad rfl
    (by rw [inStart true]; exact zero_le_one)
  rw [← hnx, j0, zu, fx 0 (by norm_num)] at fl
  obtain ⟨r0, r1⟩ := C04_reported_end_depths (inConsistent true) uc hk
  rw [← hnx, ends.1] at r0
  rw [← hnx, ends.2] at r1
  have mo := ((saintVenant_iff (inConsistent true) (inTables true) ps p.coefs _ hk).1 (C01_step (inConsistent true) ps p rfl uc hk)).1 0
    (by norm_num [inModel, reModel])
  rw [← hnx] at mo
  have Qz : nx.Q 0 = 0 := by
    have sg := ps.sigma_pos 0 (by norm_num [inModel, reModel])
    have i1 : (inModel true).ix.i_1k 0 = 0 := rfl
    have I1 : (inModel true).ix.I_1k 0 = 0 := rfl
    have n1 : (inModel true).ix.nk 0 = 1 := rfl
    rw [I1] at r0
    rw [I1, n1] at r1
    have Q0 : ∀ i, ((inModel true).start (inGiven d)).Q i = 0 := fun _ => rfl
    have S0 : (inModel true).S_o 0 = 0 := rfl
    have D0 : (inModel true).dx 0 = 10 := rfl
    have M0 : (inModel true).method 0 = 0 := rfl
    have C0 : (inModel true).ctrl 0 = false := rfl
    simp only [MomentumEq, i1, I1, velocityUp, velocityDown, Q0, S0, D0, M0, C0, frictionLaw, hiddenInputs, n1] at mo
    rw [r0, r1] at mo
    norm_num at mo
    rcases mo with h | h
    · exact absurd h sg.ne'
    · exact h
  have sa : surfaceArea (inModel true) geo 0 0 = 5 := by
    rw [← hgeo]
    norm_num [surfaceArea, inModel, reModel, Model.geoOf, inPlan, rePlan, Section.B, topWidth, rectOpenB]
  have i1 : (inModel true).ix.i_1k 0 = 0 := rfl
  rw [i1, Qz, sa] at fl
  rw [fl]
  show 0 + 1000000 * (5 * (1 - 0 - d)) = _
  ring

/-- With the pipe filled to half the depth: two and a half million cubic metres per second. -/
example : ∃ o', Built (inModel true) inPlan (inGiven (1 / 2)) o' ∧ o'.cur.Qu 0 = 2500000 := by
  obtain ⟨o', h, e⟩ := C147_not_kept (d := 1 / 2) (by norm_num)
  exact ⟨o', h, by rw [e]; norm_num⟩

/-- Depths which fit: free heads, the pipe filled to the level of the superjunctions. The bound is 0. -/
example : ∃ Ao co x,
    Pass (inModel false) ((inModel false).geoOf inPlan (Hidden.fresh (inGiven 1).Ao) Ao ((inModel false).start (inGiven 1)))
      hiddenInputs freshWork ((inModel false).start (inGiven 1)) ((inModel false).start (inGiven 1)) co x ∧
    ∑ j ∈ free (inModel false),
        surfaceAt (inModel false) ((inModel false).geoOf inPlan (Hidden.fresh (inGiven 1).Ao) Ao
          ((inModel false).start (inGiven 1))) ((inModel false).start (inGiven 1)) j
        * |((inModel false).advance ((inModel false).geoOf inPlan (Hidden.fresh (inGiven 1).Ao) Ao
          ((inModel false).start (inGiven 1))) hiddenInputs freshWork ((inModel false).start (inGiven 1)) co x).H j
          - ((inModel false).start (inGiven 1)).H j|
      ≤ 1 / 1000000 * (2 * ∑ k ∈ Finset.range 1, 0) := by
  have wet : ∀ I, (inModel false).min_depth ≤ (inGiven 1).hJ I := fun _ => by norm_num [inModel, reModel, inGiven]
  obtain ⟨o', hb, -, -⟩ := C147_builds (gv := inGiven 1) (inSound false) (inNoRound false) wet
  obtain ⟨Ao, co, x, p, e⟩ := built_pass hb
  refine ⟨Ao, co, x, p, ?_⟩
  have k0 : ∀ k, k < (inModel false).ix.NK → k = 0 := fun k hk => by simp only [inModel, reModel] at hk; omega
  have ps := physical_geoOf (inSound false) (hiddenGood (inNoRound false)) (Hidden.fresh (inGiven 1).Ao) Ao
    (s := (inModel false).start (inGiven 1)) wet
  have pos : ∀ t, 0 < (inPlan.sec t).A ((inGiven 1).hJ 0) (1 * (1 - 0)) := fun t =>
    Section.A_pos (md := (inModel false).min_depth) (by norm_num [inModel, reModel])
      ((inSound false).sec 0 (by norm_num [inModel, reModel])) (wet 0) (by norm_num [inModel, reModel])
  refine C147_heads_partial (inConsistent false) (inTables false) ps rfl p (by norm_num [inModel, reModel])
    (fun j _ => by rw [inStart]; norm_num [inModel, reModel]) (fun k hk => ?_) (fun k hk => ?_) (fun k hk => ?_)
    (fun k hk j h1 h2 => ?_) (B := fun _ => 0) (fun k hk => ?_) rfl rfl rfl
  · rw [k0 k hk]
    show 0 < upTo 1 _ 0
    rw [upTo_of_lt _ (by norm_num)]
    change 0 < (inPlan.sec 0).A ((inGiven 1).hJ 0) (1 * (((inModel false).start (inGiven 1)).H 0 - 0))
    rw [inStart]
    exact pos _
  · rw [k0 k hk]
    show 0 < upTo 1 _ 0
    rw [upTo_of_lt _ (by norm_num)]
    change 0 < (inPlan.sec 0).A ((inGiven 1).hJ 0) (1 * (((inModel false).start (inGiven 1)).H 1 - 0))
    rw [inStart]
    exact pos _
  · have q0 : ((inModel false).start (inGiven 1)).Qu k = 0 := rfl
    have q1 : ((inModel false).start (inGiven 1)).Qd k = 0 := rfl
    refine ⟨?_, ?_⟩
    · rw [q0, inStart]; norm_num [inModel, reModel, Model.start, inGiven]
    · rw [q1, inStart]; norm_num [inModel, reModel, Model.start, inGiven]
  · simp only [inModel, reModel] at h2; omega
  · refine ⟨by norm_num [Model.start, inGiven], by norm_num [Model.start, inGiven], fun j hj => ?_⟩
    norm_num [push, Model.start, inGiven, inModel, reModel]

end Pipedream.Step
