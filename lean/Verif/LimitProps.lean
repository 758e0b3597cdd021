import Verif.LimitModel
import Verif.LateralProps

/-!
# C157: depth limits act only where they are reached

A model without depth limits (the default) runs like a model whose limits it never reaches. So what is proved about models with
limits, whatever the limits, holds for models without.
-/

namespace Pipedream.Step

open Pipedream.Sweep Pipedream.Link Pipedream.Superlink Pipedream.Control Pipedream.Network
open Pipedream.Geometry Pipedream.Interp

noncomputable section

/-- The numbers `D` are the limits `lim` where there are limits, and at least `B` where there are none. -/
def FitsLimits (lim : ℕ → Option ℝ) (B D : ℕ → ℝ) : Prop :=
  ∀ k, (∀ d, lim k = some d → D k = d) ∧ (lim k = none → B k ≤ D k)

/-! ### The internal solve -/

theorem next_limit (f : Fwd ℝ) (bw : Bwd ℝ) (mn h1 hN : ℝ) (l : Option ℝ) (I_N i_n j : ℕ) (s : HQ ℝ) :
    ∃ B, ∀ D, (∀ d, l = some d → D = d) → (l = none → B ≤ D) →
      internalsNext f bw mn D h1 hN I_N i_n j s = internalsNextL f bw mn l h1 hN I_N i_n j s := by
  cases l with
  | some d =>
    refine ⟨0, fun D hD _ => ?_⟩
    rw [hD d rfl]; rfl
  | none =>
    refine ⟨(internalsNextL f bw mn none h1 hN I_N i_n j s).h (I_N - j), fun D _ hD => ?_⟩
    have := hD rfl
    simp only [internalsNextL, upd_same, clipDepthL] at this
    simp only [internalsNext, internalsNextL, clipDepth, clipDepthL, upd_same]
    rw [if_neg (by exact not_lt.mpr this)]

theorem loop_limit (f : Fwd ℝ) (bw : Bwd ℝ) (mn h1 hN : ℝ) (l : Option ℝ) (I_N i_n : ℕ) (s : HQ ℝ) (n : ℕ) :
    ∃ B, ∀ D, (∀ d, l = some d → D = d) → (l = none → B ≤ D) →
      forRange n (internalsNext f bw mn D h1 hN I_N i_n) s = forRange n (internalsNextL f bw mn l h1 hN I_N i_n) s := by
  induction n with
  | zero => exact ⟨0, fun _ _ _ => rfl⟩
  | succ n ih =>
    obtain ⟨B, hB⟩ := ih
    obtain ⟨B', hB'⟩ := next_limit f bw mn h1 hN l I_N i_n n (forRange n (internalsNextL f bw mn l h1 hN I_N i_n) s)
    refine ⟨max B B', fun D h1 h2 => ?_⟩
    rw [forRange_succ, forRange_succ, hB D h1 fun h => (le_max_left _ _).trans (h2 h),
      hB' D h1 fun h => (le_max_right _ _).trans (h2 h)]

theorem superlink_limit (f : Fwd ℝ) (bw : Bwd ℝ) (mn hu hd : ℝ) (l : Option ℝ) (n I1 i1 : ℕ) (back : Bool) (s : HQ ℝ) :
    ∃ B, ∀ D, (∀ d, l = some d → D = d) → (l = none → B ≤ D) →
      internalsSuperlink f bw mn D hu hd n I1 i1 back s = internalsSuperlinkL f bw mn l hu hd n I1 i1 back s := by
  obtain ⟨B, hB⟩ := loop_limit f bw mn hu hd l (I1 + n - 1) (i1 + n - 1)
    { s with h := upd (upd s.h I1 hu) (I1 + n) hd } (n - 1)
  refine ⟨B, fun D h1 h2 => ?_⟩
  simp only [internalsSuperlink, internalsSuperlinkL]
  rw [hB D h1 h2]

theorem internals_limit (f : Fwd ℝ) (bw : Bwd ℝ) (mn : ℝ) (lim : ℕ → Option ℝ) (hu hd : ℕ → ℝ) (i_1k I_1k nk : ℕ → ℕ)
    (NK : ℕ) (back : Bool) (s : HQ ℝ) :
    ∃ B, ∀ D, FitsLimits lim B D →
      numbaSolveInternals f bw mn D hu hd i_1k I_1k nk NK back s = numbaSolveInternalsL f bw mn lim hu hd i_1k I_1k nk NK back s := by
  unfold numbaSolveInternals numbaSolveInternalsL
  induction NK with
  | zero => exact ⟨fun _ => 0, fun _ _ => rfl⟩
  | succ NK ih =>
    obtain ⟨B, hB⟩ := ih
    obtain ⟨b, hb⟩ := superlink_limit f bw mn (hu NK) (hd NK) (lim NK) (nk NK) (I_1k NK) (i_1k NK) back
      (forRange NK (fun k s => internalsSuperlinkL f bw mn (lim k) (hu k) (hd k) (nk k) (I_1k k) (i_1k k) back s) s)
    refine ⟨fun k => max (B k) b, fun D hD => ?_⟩
    rw [forRange_succ, forRange_succ, hB D fun k => ⟨(hD k).1, fun h => (le_max_left _ _).trans ((hD k).2 h)⟩,
      hb (D NK) (hD NK).1 fun h => (le_max_right _ _).trans ((hD NK).2 h)]

/-! ### The step -/

variable {m : Model} {P : Plan} {lim : Limits} {geo : Geo} {inp : Inputs} {wk : Work} {cur : Hyd} {co : Coef ℝ} {x : ℕ → ℝ}

theorem heads_limit (z x : ℕ → ℝ) (lim : ℕ → Option ℝ) :
    ∃ B, ∀ D, FitsLimits lim B D → clipHead z D x = clipHeadL z lim x := by
  refine ⟨fun i => max (x i) (z i) - z i, fun D hD => funext fun i => ?_⟩
  unfold clipHead clipHeadL
  cases h : lim i with
  | some d => rw [(hD i).1 d h]
  | none =>
    have := (hD i).2 h
    exact min_eq_left (by linarith)

theorem internals_swept {DJ DK hu hd : ℕ → ℝ}
    (e : numbaSolveInternals (m.fwd wk co) (m.bwd wk co) m.min_depth DK hu hd m.ix.i_1k m.ix.I_1k m.ix.nk m.ix.NK m.back ⟨cur.h, cur.Q⟩ =
      numbaSolveInternalsL (m.fwd wk co) (m.bwd wk co) m.min_depth lim.K hu hd m.ix.i_1k m.ix.I_1k m.ix.nk m.ix.NK m.back
        ⟨cur.h, cur.Q⟩) :
    sweptInternals (m.limit DJ DK).g co (m.limit DJ DK).ix (m.limit DJ DK).min_depth (m.limit DJ DK).max_depth_k hu hd
        (m.limit DJ DK).back wk.f wk.b ⟨cur.h, cur.Q⟩ =
      solveInternalsL (m.fwd wk co) (m.bwd wk co) m.min_depth lim.K hu hd m.ix.i_1k m.ix.I_1k m.ix.nk m.ix.NK m.back ⟨cur.h, cur.Q⟩ := by
  unfold sweptInternals solveInternals solveInternalsL
  rw [← e]
  rfl

theorem advance_limit (m : Model) (lim : Limits) (geo : Geo) (inp : Inputs) (wk : Work) (cur : Hyd) (co : Coef ℝ) (x : ℕ → ℝ) :
    ∃ BJ BK, ∀ DJ DK, FitsLimits lim.J BJ DJ → FitsLimits lim.K BK DK →
      (m.limit DJ DK).advance geo inp wk cur co x = m.advanceL lim geo inp wk cur co x := by
  obtain ⟨BJ, hJ⟩ := heads_limit m.z_inv x lim.J
  obtain ⟨BK, hK⟩ := internals_limit (m.fwd wk co) (m.bwd wk co) m.min_depth lim.K
    (fun k => huk (m.endRec wk co k) (m.headCoef geo cur k) (clipHeadL m.z_inv lim.J x (m.Ju k)) (clipHeadL m.z_inv lim.J x (m.Jd k)))
    (fun k => hdk (m.endRec wk co k) (m.headCoef geo cur k) (clipHeadL m.z_inv lim.J x (m.Ju k)) (clipHeadL m.z_inv lim.J x (m.Jd k)))
    m.ix.i_1k m.ix.I_1k m.ix.nk m.ix.NK m.back ⟨cur.h, cur.Q⟩
  refine ⟨BJ, BK, fun DJ DK h1 h2 => ?_⟩
  have e1 := hJ DJ h1
  have e2 := hK DK h2
  have c1 : (m.limit DJ DK).endRec wk co = m.endRec wk co := rfl
  have c2 : (m.limit DJ DK).headCoef geo cur = m.headCoef geo cur := rfl
  have c3 : clipHead (m.limit DJ DK).z_inv (m.limit DJ DK).max_depth x = clipHeadL m.z_inv lim.J x := e1
  have c5 : (m.limit DJ DK).Ju = m.Ju := rfl
  have c6 : (m.limit DJ DK).Jd = m.Jd := rfl
  unfold Model.advance Model.advanceL
  simp only [c1, c2, c3, c5, c6]
  have c4 := internals_swept (DJ := DJ) e2
  rw [c4]
  rfl

/-! ### Limits that are not reached -/

theorem next_off (f : Fwd ℝ) (bw : Bwd ℝ) (mn h1 hN : ℝ) (l : Option ℝ) (I_N i_n j : ℕ) (s : HQ ℝ) {I : ℕ} (h : I ≠ I_N - j) :
    (internalsNextL f bw mn l h1 hN I_N i_n j s).h I = s.h I := by
  simp only [internalsNextL]; exact upd_other _ _ h

theorem next_off' (f : Fwd ℝ) (bw : Bwd ℝ) (mn h1 hN D : ℝ) (I_N i_n j : ℕ) (s : HQ ℝ) {I : ℕ} (h : I ≠ I_N - j) :
    (internalsNext f bw mn D h1 hN I_N i_n j s).h I = s.h I := by
  simp only [internalsNext]; exact upd_other _ _ h

theorem next_under (f : Fwd ℝ) (bw : Bwd ℝ) (mn h1 hN D : ℝ) (I_N i_n j : ℕ) (s : HQ ℝ) :
    ((internalsNextL f bw mn none h1 hN I_N i_n j s).h (I_N - j) ≤ D ∨ (internalsNext f bw mn D h1 hN I_N i_n j s).h (I_N - j) < D) →
      internalsNext f bw mn D h1 hN I_N i_n j s = internalsNextL f bw mn none h1 hN I_N i_n j s := by
  simp only [internalsNext, internalsNextL, upd_same, clipDepth, clipDepthL]
  generalize (if _ < mn then mn else _ : ℝ) = y
  intro h
  have : ¬ y > D := by
    rcases h with h | h
    · exact not_lt.mpr h
    · intro hy
      rw [if_pos hy] at h
      exact lt_irrefl _ h
  rw [if_neg this]

theorem loop_under (f : Fwd ℝ) (bw : Bwd ℝ) (mn h1 hN D : ℝ) (I_N i_n : ℕ) (s : HQ ℝ) (n : ℕ) (hn : n ≤ I_N)
    (h : (∀ j, j < n → (forRange n (internalsNextL f bw mn none h1 hN I_N i_n) s).h (I_N - j) ≤ D) ∨
      ∀ j, j < n → (forRange n (internalsNext f bw mn D h1 hN I_N i_n) s).h (I_N - j) < D) :
    forRange n (internalsNext f bw mn D h1 hN I_N i_n) s = forRange n (internalsNextL f bw mn none h1 hN I_N i_n) s := by
  induction n with
  | zero => rfl
  | succ n ih =>
    have e := ih (by omega) (by
      rcases h with h | h
      · left; intro j hj
        have := h j (by omega)
        rwa [forRange_succ, next_off _ _ _ _ _ _ _ _ _ _ (by omega)] at this
      · right; intro j hj
        have := h j (by omega)
        rwa [forRange_succ, next_off' _ _ _ _ _ _ _ _ _ _ (by omega)] at this)
    rw [forRange_succ, forRange_succ, e]
    apply next_under
    rcases h with h | h
    · left; have := h n (by omega); rwa [forRange_succ] at this
    · right; have := h n (by omega); rwa [forRange_succ, e] at this

theorem superlink_under (f : Fwd ℝ) (bw : Bwd ℝ) (mn hu hd D : ℝ) (n I1 i1 : ℕ) (back : Bool) (s : HQ ℝ)
    (h : (∀ j, 1 ≤ j → j < n → (internalsSuperlinkL f bw mn none hu hd n I1 i1 back s).h (I1 + j) ≤ D) ∨
      ∀ j, 1 ≤ j → j < n → (internalsSuperlink f bw mn D hu hd n I1 i1 back s).h (I1 + j) < D) :
    internalsSuperlink f bw mn D hu hd n I1 i1 back s = internalsSuperlinkL f bw mn none hu hd n I1 i1 back s := by
  have a : ∀ I, (internalsSuperlinkL f bw mn none hu hd n I1 i1 back s).h I =
      (forRange (n - 1) (internalsNextL f bw mn none hu hd (I1 + n - 1) (i1 + n - 1))
        { s with h := upd (upd s.h I1 hu) (I1 + n) hd }).h I := by
    intro I; unfold internalsSuperlinkL; cases back <;> rfl
  have b : ∀ I, (internalsSuperlink f bw mn D hu hd n I1 i1 back s).h I =
      (forRange (n - 1) (internalsNext f bw mn D hu hd (I1 + n - 1) (i1 + n - 1))
        { s with h := upd (upd s.h I1 hu) (I1 + n) hd }).h I := by
    intro I; unfold internalsSuperlink; cases back <;> rfl
  have := loop_under f bw mn hu hd D (I1 + n - 1) (i1 + n - 1) { s with h := upd (upd s.h I1 hu) (I1 + n) hd } (n - 1)
    (by omega) (by
      rcases h with h | h
      · left; intro j hj
        have := h (n - 1 - j) (by omega) (by omega)
        rwa [a, show I1 + (n - 1 - j) = I1 + n - 1 - j by omega] at this
      · right; intro j hj
        have := h (n - 1 - j) (by omega) (by omega)
        rwa [b, show I1 + (n - 1 - j) = I1 + n - 1 - j by omega] at this)
  simp only [internalsSuperlink, internalsSuperlinkL]
  rw [this]

/-- A limit is given, or it is missing and what is computed with the missing limit is at most `D`, or what is computed with `D`
stays below `D`. -/
theorem superlink_either (f : Fwd ℝ) (bw : Bwd ℝ) (mn hu hd D : ℝ) (l : Option ℝ) (n I1 i1 : ℕ) (back : Bool) (s : HQ ℝ)
    (h : l = some D ∨ l = none ∧
      ((∀ j, 1 ≤ j → j < n → (internalsSuperlinkL f bw mn l hu hd n I1 i1 back s).h (I1 + j) ≤ D) ∨
      ∀ j, 1 ≤ j → j < n → (internalsSuperlink f bw mn D hu hd n I1 i1 back s).h (I1 + j) < D)) :
    internalsSuperlink f bw mn D hu hd n I1 i1 back s = internalsSuperlinkL f bw mn l hu hd n I1 i1 back s := by
  rcases h with rfl | ⟨rfl, h⟩
  · obtain ⟨B, hB⟩ := superlink_limit f bw mn hu hd (some D) n I1 i1 back s
    exact hB D (fun d h => by injection h) (fun h => by cases h)
  · exact superlink_under f bw mn hu hd D n I1 i1 back s h

theorem internals_reached (f : Fwd ℝ) (bw : Bwd ℝ) (mn : ℝ) (lim : ℕ → Option ℝ) (D hu hd : ℕ → ℝ) (i_1k I_1k nk : ℕ → ℕ)
    (NK : ℕ) (back : Bool) (s : HQ ℝ) (L : Layout NK nk I_1k i_1k)
    (h : ∀ k, k < NK → lim k = some (D k) ∨ lim k = none ∧ ∀ j, 1 ≤ j → j < nk k →
      (numbaSolveInternals f bw mn D hu hd i_1k I_1k nk NK back s).h (I_1k k + j) < D k) :
    numbaSolveInternals f bw mn D hu hd i_1k I_1k nk NK back s = numbaSolveInternalsL f bw mn lim hu hd i_1k I_1k nk NK back s := by
  unfold numbaSolveInternals at h ⊢
  unfold numbaSolveInternalsL
  have key : ∀ N, N ≤ NK →
      (∀ k, k < N → lim k = some (D k) ∨ lim k = none ∧ ∀ j, 1 ≤ j → j < nk k →
        (forRange N (fun k s => internalsSuperlink f bw mn (D k) (hu k) (hd k) (nk k) (I_1k k) (i_1k k) back s) s).h
          (I_1k k + j) < D k) →
      forRange N (fun k s => internalsSuperlink f bw mn (D k) (hu k) (hd k) (nk k) (I_1k k) (i_1k k) back s) s =
        forRange N (fun k s => internalsSuperlinkL f bw mn (lim k) (hu k) (hd k) (nk k) (I_1k k) (i_1k k) back s) s := by
    intro N
    induction N with
    | zero => intros; rfl
    | succ N ih =>
      intro hN h
      have e := ih (by omega) fun k hk => by
        refine (h k (by omega)).imp id fun ⟨h1, h2⟩ => ⟨h1, fun j j1 j2 => ?_⟩
        have := h2 j j1 j2
        rw [forRange_succ, (internalsSuperlink_spec f bw mn (D N) (hu N) (hd N) (nk N) (I_1k N) (i_1k N) back _
          (L.pos N (by omega))).2.2 (I_1k k + j)
          (fun j' hj' => L.junctions_disjoint k N (by omega) (by omega) (by omega) j j' (by omega) hj')] at this
        exact this
      rw [forRange_succ, forRange_succ, e]
      apply superlink_either
      refine (h N (by omega)).imp id fun ⟨h1, h2⟩ => ⟨h1, Or.inr fun j j1 j2 => ?_⟩
      have := h2 j j1 j2
      rwa [forRange_succ, e] at this
  exact key NK le_rfl h

/-- Every limit is one of `lim`, or is missing there and is not reached by the state `s`: heads and interior depths lie strictly
below it. -/
structure Unreached (m : Model) (lim : Limits) (DJ DK : ℕ → ℝ) (s : Hyd) : Prop where
  heads : ∀ j, lim.J j = some (DJ j) ∨ lim.J j = none ∧ s.H j < m.z_inv j + DJ j
  depths : ∀ k, k < m.ix.NK → lim.K k = some (DK k) ∨ lim.K k = none ∧ ∀ j, 1 ≤ j → j < m.ix.nk k → s.h (m.ix.I_1k k + j) < DK k

/-- Calls whose results all satisfy `good`. -/
def Watched (m : Model) (P : Plan) (good : Hyd → Prop) : List (Bool × Inputs) → Obj → Obj → Prop
  | [], o, o' => o' = o
  | q :: rest, o, o' => ∃ o1, Calls1 m P q.1 q.2 o o1 ∧ good o1.cur ∧ Watched m P good rest o1 o'

theorem advance_reached (c : m.Consistent) {DJ DK : ℕ → ℝ}
    (u : Unreached m lim DJ DK ((m.limit DJ DK).advance geo inp wk cur co x)) :
    (m.limit DJ DK).advance geo inp wk cur co x = m.advanceL lim geo inp wk cur co x := by
  have e1 : clipHead m.z_inv DJ x = clipHeadL m.z_inv lim.J x := by
    funext j
    have : lim.J j = some (DJ j) ∨ lim.J j = none ∧ min (max (x j) (m.z_inv j)) (m.z_inv j + DJ j) < m.z_inv j + DJ j := u.heads j
    unfold clipHead clipHeadL
    rcases this with h | ⟨h, h'⟩
    · rw [h]
    · rw [h]
      rcases min_lt_iff.mp h' with h' | h'
      · exact min_eq_left h'.le
      · exact absurd h' (lt_irrefl _)
  have e2 := internals_reached (m.fwd wk co) (m.bwd wk co) m.min_depth lim.K DK
    (fun k => huk (m.endRec wk co k) (m.headCoef geo cur k) (clipHead m.z_inv DJ x (m.Ju k)) (clipHead m.z_inv DJ x (m.Jd k)))
    (fun k => hdk (m.endRec wk co k) (m.headCoef geo cur k) (clipHead m.z_inv DJ x (m.Ju k)) (clipHead m.z_inv DJ x (m.Jd k)))
    m.ix.i_1k m.ix.I_1k m.ix.nk m.ix.NK m.back ⟨cur.h, cur.Q⟩ c.layout (fun k hk => by
      refine (u.depths k hk).imp id fun ⟨h1, h2⟩ => ⟨h1, fun j j1 j2 => lt_of_le_of_lt ?_ (h2 j j1 j2)⟩
      simp only [Model.advance, sweptInternals, solveInternals]
      split_ifs with hlt
      · exact hlt.le
      · exact le_refl _)
  rw [e1] at e2
  have c1 : (m.limit DJ DK).endRec wk co = m.endRec wk co := rfl
  have c2 : (m.limit DJ DK).headCoef geo cur = m.headCoef geo cur := rfl
  have c3 : clipHead (m.limit DJ DK).z_inv (m.limit DJ DK).max_depth x = clipHeadL m.z_inv lim.J x := e1
  have c5 : (m.limit DJ DK).Ju = m.Ju := rfl
  have c6 : (m.limit DJ DK).Jd = m.Jd := rfl
  unfold Model.advance Model.advanceL
  simp only [c1, c2, c3, c5, c6]
  have c4 := internals_swept (DJ := DJ) e2
  rw [c4]
  rfl

/-! ### C157 -/

/-- **C157 (one step).** A step with missing limits gives what all sufficiently large limits in their place give. -/
theorem C157_step {first : Bool} {o o' : Obj} (h : CallsL m P lim first inp o o') :
    ∃ BJ BK, ∀ DJ DK, FitsLimits lim.J BJ DJ → FitsLimits lim.K BK DK → Calls1 (m.limit DJ DK) P first inp o o' := by
  obtain ⟨Ao, co, x, ho, p, e⟩ := h
  obtain ⟨BJ, BK, hB⟩ := advance_limit m lim (m.geoOf P o.hid Ao o.cur) inp o.wk o.cur co x
  refine ⟨BJ, BK, fun DJ DK h1 h2 => ⟨Ao, co, x, ho, ⟨p.coefs, p.solve⟩, ?_⟩⟩
  rw [e, ← hB DJ DK h1 h2]
  rfl

/-- **C157 (runs).** Every run of a model with missing limits is the run of the models with sufficiently large limits in their
place: what holds for all limits holds for such runs. -/
theorem C157_run {l : List (Bool × Inputs)} {o o' : Obj} (h : HistoryL m P lim l o o') :
    ∃ BJ BK, ∀ DJ DK, FitsLimits lim.J BJ DJ → FitsLimits lim.K BK DK → History (m.limit DJ DK) P l o o' := by
  induction l generalizing o with
  | nil => exact ⟨fun _ => 0, fun _ => 0, fun _ _ _ _ => h⟩
  | cons q l ih =>
    obtain ⟨o1, h1, h2⟩ := h
    obtain ⟨B1, C1, g1⟩ := C157_step h1
    obtain ⟨B2, C2, g2⟩ := ih h2
    have left : ∀ {lm : ℕ → Option ℝ} {A B D : ℕ → ℝ}, FitsLimits lm (fun k => max (A k) (B k)) D → FitsLimits lm A D ∧ FitsLimits lm B D :=
      fun hf => ⟨fun k => ⟨(hf k).1, fun h => (le_max_left _ _).trans ((hf k).2 h)⟩,
        fun k => ⟨(hf k).1, fun h => (le_max_right _ _).trans ((hf k).2 h)⟩⟩
    exact ⟨_, _, fun DJ DK hj hk =>
      ⟨o1, g1 DJ DK (left hj).1 (left hk).1, g2 DJ DK (left hj).2 (left hk).2⟩⟩

/-- **C157 (given limits).** With limits everywhere the step is the step with these numbers. -/
theorem C157_given {DJ DK : ℕ → ℝ} {first : Bool} {o o' : Obj} :
    CallsL m P ⟨fun j => some (DJ j), fun k => some (DK k)⟩ first inp o o' ↔ Calls1 (m.limit DJ DK) P first inp o o' := by
  constructor
  · intro h
    obtain ⟨BJ, BK, g⟩ := C157_step h
    exact g DJ DK (fun k => ⟨fun d h => by injection h, fun h => by cases h⟩)
      (fun k => ⟨fun d h => by injection h, fun h => by cases h⟩)
  · rintro ⟨Ao, co, x, ho, p, e⟩
    refine ⟨Ao, co, x, ho, ⟨p.coefs, p.solve⟩, ?_⟩
    obtain ⟨BJ, BK, hB⟩ := advance_limit m ⟨fun j => some (DJ j), fun k => some (DK k)⟩ (m.geoOf P o.hid Ao o.cur) inp o.wk o.cur co x
    rw [e, ← hB DJ DK (fun k => ⟨fun d h => by injection h, fun h => by cases h⟩)
      (fun k => ⟨fun d h => by injection h, fun h => by cases h⟩)]
    rfl

/-- **C157 (limits that are not reached).** A step whose results stay below the limits is the step without these limits. -/
theorem C157_unreached (c : m.Consistent) {DJ DK : ℕ → ℝ} {first : Bool} {o o' : Obj}
    (h : Calls1 (m.limit DJ DK) P first inp o o') (u : Unreached m lim DJ DK o'.cur) : CallsL m P lim first inp o o' := by
  obtain ⟨Ao, co, x, ho, p, rfl⟩ := h
  refine ⟨Ao, co, x, ho, ⟨p.coefs, p.solve⟩, ?_⟩
  have := advance_reached (geo := m.geoOf P o.hid Ao o.cur) (inp := inp) (wk := o.wk) (cur := o.cur) (co := co) (x := x) c u
  rw [← this]
  rfl

/-- **C157 (runs that reach no limit).** -/
theorem C157_run_unreached (c : m.Consistent) {DJ DK : ℕ → ℝ} {l : List (Bool × Inputs)} {o o' : Obj}
    (h : Watched (m.limit DJ DK) P (Unreached m lim DJ DK) l o o') : HistoryL m P lim l o o' := by
  induction l generalizing o with
  | nil => exact h
  | cons q l ih =>
    obtain ⟨o1, h1, h2, h3⟩ := h
    exact ⟨o1, C157_unreached c h1 h2, ih h3⟩

/-- **C157 (success).** A sound model succeeds from every good object whatever limits it has, and leaves a good object. -/
theorem C157_succeeds (sd : Sound m P) (lim : Limits) (l : List (Bool × Inputs)) (hl : ∀ q ∈ l, GoodInputs m P q.2) {o : Obj}
    (go : GoodObj m o) : ∃ o', HistoryL m P lim l o o' ∧ GoodObj m o' := by
  induction l generalizing o with
  | nil => exact ⟨o, rfl, go⟩
  | cons q l ih =>
    obtain ⟨-, Ao, co, x, ho, p, -⟩ := C105_step_succeeds sd (hl q (by simp)) q.1 go
    have h1 : CallsL m P lim q.1 q.2 o _ := ⟨Ao, co, x, ho, p, rfl⟩
    obtain ⟨BJ, BK, hB⟩ := C157_step h1
    have h2 := hB (fun j => (lim.J j).getD (BJ j)) (fun k => (lim.K k).getD (BK k))
      (fun k => ⟨fun d h => by simp [h], fun h => by simp [h]⟩) (fun k => ⟨fun d h => by simp [h], fun h => by simp [h]⟩)
    have sd' : (m.limit (fun j => (lim.J j).getD (BJ j)) (fun k => (lim.K k).getD (BK k))).Consistent :=
      { sd.cons with }
    have cw : CleanWork (m.limit (fun j => (lim.J j).getD (BJ j)) (fun k => (lim.K k).getD (BK k))) o.wk.mats :=
      { go.clean with }
    have g' := GoodObj.next sd' ⟨cw, go.wet⟩ h2
    obtain ⟨o', h3, h4⟩ := ih (fun q hq => hl q (by simp [hq])) (o := _) ⟨{ g'.clean with }, g'.wet⟩
    exact ⟨o', ⟨_, h1, h3⟩, h4⟩

/-- Two superjunctions at 2 m and 1 m, joined by a channel with 1 m of water at rest: the heads stay between 1 m and 2 m. -/
theorem level_call : ∃ o', Calls1 (inModel false) inPlan true (reInp 1)
      ((inModel false).blank ⟨fun j => if j = 0 then 2 else 1, fun _ => 1, fun _ => 0, fun _ => 0⟩) o' ∧
    ∀ i, i < 2 → 1 ≤ o'.cur.H i ∧ o'.cur.H i ≤ 2 := by
  set gv : Given := ⟨fun j => if j = 0 then 2 else 1, fun _ => 1, fun _ => 0, fun _ => 0⟩ with hgv
  have gi : GoodInputs (inModel false) inPlan (reInp 1) :=
    ⟨(reGood 1).dt_pos, fun p hp => by simp [inModel, reModel] at hp, fun a ha => by simp [inModel, reModel] at ha⟩
  have wet : ∀ I, (inModel false).min_depth ≤ gv.hJ I := fun _ => by norm_num [inModel, reModel, hgv]
  obtain ⟨o', Ao, co, x, ho, p, e⟩ := C105_step_succeeds (inSound false) gi true (blankGood wet)
  have ps := physical_geoOf (inSound false) gi ((inModel false).blank gv).hid Ao (s := ((inModel false).blank gv).cur) wet
  have hs : ((inModel false).blank gv).cur = (inModel false).start gv := rfl
  have hH : ∀ i, ((inModel false).start gv).H i = if i = 0 then 2 else 1 := by
    intro i; by_cases h : i = 0 <;> norm_num [Model.start, inModel, reModel, hgv, h]
  have bed : Bed (inModel false) fun _ => 0 := by
    refine ⟨?_, ?_, ?_⟩ <;> norm_num [inModel, reModel]
  have rs : AtRest (inModel false) ((inModel false).blank gv).cur := by
    refine ⟨?_, ?_, ?_, ?_, ?_⟩ <;> intros <;> rfl
  have cl : Calm (inModel false)
      ((inModel false).geoOf inPlan ((inModel false).blank gv).hid Ao ((inModel false).blank gv).cur) (reInp 1)
      ((inModel false).blank gv).cur := by
    refine ⟨fun k _ => ?_, fun k _ => ?_, fun q hq => ?_, fun k hk j h1 h2 => ?_⟩
    · rw [hs, hH]; norm_num [inModel, reModel]
    · rw [hs, hH]; norm_num [inModel, reModel]
    · simp [inModel, reModel] at hq
    · simp [inModel, reModel] at h2; omega
  have hi : ∀ i, ((inModel false).blank gv).cur.H i ≤ 2 ∧ 1 ≤ ((inModel false).blank gv).cur.H i := by
    intro i; rw [hs, hH]; by_cases h : i = 0 <;> norm_num [h]
  refine ⟨o', ⟨Ao, co, x, ho, p, e⟩, fun i hi' => ?_⟩
  rw [e]
  refine ⟨(C152_no_lower_partial (inConsistent false) (inTables false) ps (freshClean _) rfl bed p rs cl (T := 1)
      ⟨fun i _ => (hi i).2, fun k _ j _ => ?_⟩ ⟨fun _ _ => le_rfl, fun _ => le_rfl, fun f hf i _ hb => ?_⟩
      (fun i _ => ?_) i hi').2,
    (C152_no_higher_partial (inConsistent false) (inTables false) ps (freshClean _) rfl bed p rs cl (T := 2)
      ⟨fun i _ => (hi i).1, fun k _ j _ => ?_⟩ ⟨fun _ _ => le_rfl, fun _ => le_rfl, fun f hf i _ hb => ?_⟩
      (fun i _ => ?_) i hi').2⟩
  · rw [hs]; norm_num [Model.start, hgv]
  · simp [inModel, reModel] at hb
  · refine (hi i).1.trans ?_; norm_num [inModel, reModel]
  · rw [hs]; norm_num [Model.start, hgv]
  · simp [inModel, reModel] at hb
  · refine le_trans ?_ (hi i).2; norm_num [inModel, reModel]

/-- The same model with the limits of 10 m at the superjunctions and of 8 m in the channel taken away: the same call. -/
example : ∃ o', CallsL (inModel false) inPlan ⟨fun j => if j < 2 then none else some 10, fun _ => none⟩ true (reInp 1)
      ((inModel false).blank ⟨fun j => if j = 0 then 2 else 1, fun _ => 1, fun _ => 0, fun _ => 0⟩) o' ∧
    ∀ i, i < 2 → 1 ≤ o'.cur.H i ∧ o'.cur.H i ≤ 2 := by
  obtain ⟨o', h, b⟩ := level_call
  refine ⟨o', C157_unreached (DJ := (inModel false).max_depth) (DK := (inModel false).max_depth_k) (inConsistent false) h
    ⟨fun j => ?_, fun k _ => Or.inr ⟨rfl, fun j h1 h2 => ?_⟩⟩, b⟩
  · by_cases hj : j < 2
    · right
      refine ⟨if_pos hj, lt_of_le_of_lt (b j hj).2 ?_⟩
      norm_num [inModel, reModel]
    · left; exact if_neg hj
  · simp [inModel, reModel] at h2; omega

/-- Without limits it can also be filled for ever: every sequence of calls succeeds. -/
example (l : List (Bool × Inputs)) (hl : ∀ q ∈ l, GoodInputs (inModel false) inPlan q.2) :
    ∃ o', HistoryL (inModel false) inPlan ⟨fun _ => none, fun _ => none⟩ l ((inModel false).blank (inGiven 1)) o' := by
  obtain ⟨o', h, -⟩ := C157_succeeds (inSound false) ⟨fun _ => none, fun _ => none⟩ l hl
    (blankGood (gv := inGiven 1) fun _ => by norm_num [inModel, reModel, inGiven])
  exact ⟨o', h⟩

end

end Pipedream.Step
