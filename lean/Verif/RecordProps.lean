import Verif.RecordModel
import Verif.DriverProps

/-!
# C84, C85, C86, C87, C90: start time, recorded results, sampling of inputs, spin-up

Properties of `RecordModel`: what `Simulation` reports about a run and when it looks at its inputs.
-/

namespace Pipedream.Record

open Pipedream.Driver Pipedream.Interp Pipedream.Link

set_option linter.unusedSectionVars false

variable {X W I Var V : Type} [DecidableEq Var] {vw : View X Var V}
variable {hy : Hydraulics X W I} {c : Cfg I}

/-! ### Dictionaries -/

theorem lookup_dictUpdate (k t : ℝ) (v : V) (d : List (ℝ × V)) :
    lookup t (dictUpdate k v d) = if k = t then some v else lookup t d := by
  induction d with
  | nil => simp only [dictUpdate, lookup]
  | cons e r ih =>
    simp only [dictUpdate]
    by_cases h : e.1 = k
    · simp only [h, if_true, lookup]
      by_cases hk : k = t
      · simp [hk]
      · simp [hk]
    · simp only [h, if_false, lookup, ih]
      by_cases he : e.1 = t
      · have : k ≠ t := fun hh => h (he.trans hh.symm)
        simp [he, this]
      · simp [he]

theorem dictUpdate_new (k : ℝ) (v : V) (d : List (ℝ × V)) (h : ∀ e ∈ d, e.1 ≠ k) :
    dictUpdate k v d = d ++ [(k, v)] := by
  induction d with
  | nil => rfl
  | cons e r ih =>
    simp only [dictUpdate, h e (by simp), if_false, List.cons_append]
    rw [ih fun x hx => h x (by simp [hx])]

theorem dictUpdate_idem (k : ℝ) (v : V) (d : List (ℝ × V)) :
    dictUpdate k v (dictUpdate k v d) = dictUpdate k v d := by
  induction d with
  | nil => simp [dictUpdate]
  | cons e r ih =>
    simp only [dictUpdate]
    by_cases h : e.1 = k
    · simp [h, dictUpdate]
    · simp [h, dictUpdate, ih]

theorem mem_dictUpdate {k : ℝ} {v : V} {d : List (ℝ × V)} {e : ℝ × V} (h : e ∈ dictUpdate k v d) :
    e = (k, v) ∨ e ∈ d := by
  induction d with
  | nil => simpa [dictUpdate] using h
  | cons a r ih =>
    simp only [dictUpdate] at h
    by_cases ha : a.1 = k
    · simp only [ha, if_true, List.mem_cons] at h
      rcases h with h | h
      · exact Or.inl h
      · exact Or.inr (by simp [h])
    · simp only [ha, if_false, List.mem_cons] at h
      rcases h with h | h
      · exact Or.inr (by simp [h])
      · rcases ih h with h | h
        · exact Or.inl h
        · exact Or.inr (by simp [h])

/-- The variables a call `record_state(vs)` records. -/
def Records (vw : View X Var V) (vs : List Var) (v : Var) : Prop :=
  vw.inStates v = true ∧ (vs = [] ∧ v ∈ vw.vars ∨ v ∈ vs)

theorem recordVars (l : List Var) (m : Mdl X W) (st : States Var V) (v : Var) :
    (v ∈ l ∧ vw.inStates v = true →
      l.foldl (recordVar vw m) st v = some (dictUpdate m.t (vw.obs v m.x) ((st v).getD []))) ∧
    (¬ (v ∈ l ∧ vw.inStates v = true) → l.foldl (recordVar vw m) st v = st v) := by
  induction l generalizing st with
  | nil => simp
  | cons a r ih =>
    simp only [List.foldl_cons]
    have hst : recordVar vw m st a v = if a = v ∧ vw.inStates v = true then
        some (dictUpdate m.t (vw.obs v m.x) ((st v).getD [])) else st v := by
      unfold recordVar
      by_cases ha : a = v
      · subst ha
        by_cases hi : vw.inStates a = true
        · simp [hi]
        · simp [hi]
      · by_cases hi : vw.inStates a = true
        · have : v ≠ a := fun h => ha h.symm
          simp [hi, ha, this]
        · simp [hi, ha]
    obtain ⟨h1, h2⟩ := ih (recordVar vw m st a)
    constructor
    · rintro ⟨hm, hi⟩
      by_cases hr : v ∈ r
      · rw [h1 ⟨hr, hi⟩, hst]
        by_cases ha : a = v
        · simp [ha, hi, dictUpdate_idem]
        · simp [ha]
      · have ha : a = v := by
          rcases List.mem_cons.1 hm with h | h
          · exact h.symm
          · exact absurd h hr
        rw [h2 (fun h => hr h.1), hst]
        simp [ha, hi]
    · intro hn
      have hr : ¬ (v ∈ r ∧ vw.inStates v = true) := fun h => hn ⟨by simp [h.1], h.2⟩
      rw [h2 hr, hst, if_neg]
      rintro ⟨rfl, hi⟩
      exact hn ⟨by simp, hi⟩

theorem recordState_on {vs : List Var} {m : Mdl X W} {st : States Var V} {v : Var}
    (h : Records vw vs v) :
    recordState vw vs m st v = some (dictUpdate m.t (vw.obs v m.x) ((st v).getD [])) := by
  unfold recordState
  obtain ⟨hi, ⟨rfl, hv⟩ | hv⟩ := h
  · exact (recordVars _ m st v).1 ⟨by simpa using hv, hi⟩
  · refine (recordVars _ m st v).1 ⟨?_, hi⟩
    have : vs.isEmpty = false := by cases vs <;> simp_all
    simpa [this] using hv

theorem recordState_off {vs : List Var} {m : Mdl X W} {st : States Var V} {v : Var}
    (h : ¬ Records vw vs v) : recordState vw vs m st v = st v := by
  unfold recordState
  refine (recordVars _ m st v).2 ?_
  rintro ⟨hv, hi⟩
  apply h
  refine ⟨hi, ?_⟩
  cases vs with
  | nil => exact Or.inl ⟨rfl, by simpa using hv⟩
  | cons a r => exact Or.inr (by simpa using hv)

theorem initStates_eq (m : Mdl X W) {v : Var} (hi : vw.inStates v = true) (hv : v ∈ vw.vars) :
    (initStates vw m : States Var V) v = some [(m.t, vw.obs v m.saved.2)] := by
  have key : ∀ (l : List Var) (st : States Var V), v ∈ l ∨ st v = some [(m.t, vw.obs v m.saved.2)] →
      l.foldl (initVar vw m) st v = some [(m.t, vw.obs v m.saved.2)] := by
    intro l
    induction l with
    | nil => intro st h; simpa using h
    | cons a r ih =>
      intro st h
      simp only [List.foldl_cons]
      apply ih
      by_cases hr : v ∈ r
      · exact Or.inl hr
      · right
        unfold initVar
        by_cases ha : v = a
        · subst ha; simp [hi]
        · rcases h with h | h
          · simp [ha, hr] at h
          · by_cases hia : vw.inStates a = true
            · simp [hia, ha, h]
            · simp [hia, h]
  exact key _ _ (Or.inl hv)

/-! ### C84: the start of a simulation -/

theorem foldl_min_le (l : List ℝ) (a : ℝ) : l.foldl min a ≤ a ∧ ∀ x ∈ l, l.foldl min a ≤ x := by
  induction l generalizing a with
  | nil => simp
  | cons b r ih =>
    obtain ⟨h1, h2⟩ := ih (min a b)
    refine ⟨h1.trans (min_le_left _ _), ?_⟩
    intro x hx
    rcases List.mem_cons.1 hx with rfl | hx
    · exact h1.trans (min_le_right _ _)
    · exact h2 x hx

theorem foldl_min_mem (l : List ℝ) (a : ℝ) : l.foldl min a = a ∨ l.foldl min a ∈ l := by
  induction l generalizing a with
  | nil => simp
  | cons b r ih =>
    rcases ih (min a b) with h | h
    · rcases min_choice a b with h' | h'
      · left; rw [List.foldl_cons, h, h']
      · right; rw [List.foldl_cons, h, h']; simp
    · right; rw [List.foldl_cons]; simp [h]

theorem le_foldl_max (l : List ℝ) (a : ℝ) : a ≤ l.foldl max a ∧ ∀ x ∈ l, x ≤ l.foldl max a := by
  induction l generalizing a with
  | nil => simp
  | cons b r ih =>
    obtain ⟨h1, h2⟩ := ih (max a b)
    refine ⟨(le_max_left _ _).trans h1, ?_⟩
    intro x hx
    rcases List.mem_cons.1 hx with rfl | hx
    · exact (le_max_right _ _).trans h1
    · exact h2 x hx

/-- The entries of an input's index. -/
def Entry (i : ℝ × List ℝ) (x : ℝ) : Prop := x = i.1 ∨ x ∈ i.2

/-- **C84 (what holds).** A simulation constructed without `t_start` stands at its start time; the first
row of every recorded variable carries that time. With input tables this is the earliest time in any of
them, and without `t_end` the simulation ends at the latest. -/
theorem C84_start_partial {dflt : ℝ} {dt tEnd : Option ℝ} {method : Option Method}
    {inputs : List (ℝ × List ℝ)} {m : Mdl X W} {r : RSim X W Var V}
    (h : construct vw dflt dt none tEnd method inputs m = .ok r) :
    r.sim.m.t = r.tStart ∧
    (∀ v, vw.inStates v = true → v ∈ vw.vars → ∃ a, r.states v = some [(r.tStart, a)]) ∧
    (∀ i ∈ inputs, ∀ x, Entry i x → r.tStart ≤ x) ∧
    (inputs ≠ [] → ∃ i ∈ inputs, Entry i r.tStart) ∧
    (tEnd = none → ∀ i ∈ inputs, ∀ x, Entry i x → (x : WithTop ℝ) ≤ r.tEnd) := by
  unfold construct at h
  cases method with
  | none => cases h
  | some me =>
    injection h with h
    subst h
    cases inputs with
    | nil =>
      refine ⟨rfl, fun v hi hv => ⟨_, initStates_eq _ hi hv⟩, by simp, by simp, by simp⟩
    | cons i rest =>
      refine ⟨rfl, fun v hi hv => ⟨_, initStates_eq _ hi hv⟩, ?_, ?_, ?_⟩
      · intro k hk x hx
        simp only [startTime]
        obtain ⟨g1, g2⟩ := foldl_min_le (rest.map idxMin) (idxMin i)
        have hkx : idxMin k ≤ x := by
          obtain ⟨k1, k2⟩ := foldl_min_le k.2 k.1
          rcases hx with rfl | hx
          · exact k1
          · exact k2 x hx
        rcases List.mem_cons.1 hk with rfl | hk
        · exact g1.trans hkx
        · exact (g2 _ (List.mem_map_of_mem hk)).trans hkx
      · intro _
        simp only [startTime]
        have hm : ∀ k : ℝ × List ℝ, Entry k (idxMin k) := fun k => foldl_min_mem k.2 k.1
        rcases foldl_min_mem (rest.map idxMin) (idxMin i) with hh | hh
        · exact ⟨i, by simp, by rw [hh]; exact hm i⟩
        · obtain ⟨k, hk, he⟩ := List.mem_map.1 hh
          exact ⟨k, by simp [hk], by rw [← he]; exact hm k⟩
      · rintro rfl k hk x hx
        simp only [endTime]
        obtain ⟨g1, g2⟩ := le_foldl_max (rest.map idxMax) (idxMax i)
        have hkx : x ≤ idxMax k := by
          obtain ⟨k1, k2⟩ := le_foldl_max k.2 k.1
          rcases hx with rfl | hx
          · exact k1
          · exact k2 x hx
        rw [WithTop.coe_le_coe]
        rcases List.mem_cons.1 hk with rfl | hk
        · exact hkx.trans g1
        · exact hkx.trans (g2 _ (List.mem_map_of_mem hk))

/-- **C84 (violated).** With an explicit `t_start` the simulation stands at `t_start` only if the model
already did: the constructor does not move the model's clock. -/
theorem C84_given_start_iff {dflt a : ℝ} {dt tEnd : Option ℝ} {method : Option Method}
    {inputs : List (ℝ × List ℝ)} {m : Mdl X W} {r : RSim X W Var V}
    (h : construct vw dflt dt (some a) tEnd method inputs m = .ok r) :
    r.tStart = a ∧ r.sim.m = m ∧ (r.sim.m.t = r.tStart ↔ m.t = a) := by
  unfold construct at h
  cases method with
  | none => cases h
  | some me => injection h with h; subst h; exact ⟨rfl, rfl, Iff.rfl⟩

/-- Everything a run can observe except `t_start` itself. -/
def SameRun (r r' : RSim X W Var V) : Prop := r.sim = r'.sim ∧ r.states = r'.states ∧ r.tEnd = r'.tEnd

/-- **C84 (violated).** An explicit `t_start` has no influence on a run: two simulations constructed with
different `t_start` perform every sequence of operations alike — same exceptions, same states, same
recorded times, hence inputs sampled at the same times. -/
theorem C84_given_start_ignored {dflt a b : ℝ} {dt tEnd : Option ℝ} {method : Option Method}
    {inputs : List (ℝ × List ℝ)} {m : Mdl X W} {r r' : RSim X W Var V}
    (h : construct vw dflt dt (some a) tEnd method inputs m = .ok r)
    (h' : construct vw dflt dt (some b) tEnd method inputs m = .ok r') (ops : List (Op X Var)) :
    (∀ e, runOps vw hy c ops r = .error e ↔ runOps vw hy c ops r' = .error e) ∧
    ∀ q q', runOps vw hy c ops r = .ok q → runOps vw hy c ops r' = .ok q' → SameRun q q' := by
  have h0 : SameRun r r' := by
    unfold construct at h h'
    cases method with
    | none => cases h
    | some me => injection h with h; injection h' with h'; subst h; subst h'; exact ⟨rfl, rfl, rfl⟩
  have op : ∀ (o : Op X Var) (r r' : RSim X W Var V), SameRun r r' →
      (∀ e, runOp vw hy c r o = .error e ↔ runOp vw hy c r' o = .error e) ∧
      ∀ q q', runOp vw hy c r o = .ok q → runOp vw hy c r' o = .ok q' → SameRun q q' := by
    rintro o r r' ⟨h1, h2, h3⟩
    cases o with
    | step k =>
      simp only [runOp, h1]
      cases simStep hy c k.sub k.retries k.tol k.norm k.dt r'.sim with
      | error e => exact ⟨fun _ => Iff.rfl, fun q q' hq => by cases hq⟩
      | ok s =>
        refine ⟨by simp, ?_⟩
        intro q q' hq hq'; cases hq; cases hq'; exact ⟨rfl, h2, h3⟩
    | record vs =>
      simp only [runOp]
      refine ⟨by simp, ?_⟩
      intro q q' hq hq'; cases hq; cases hq'
      exact ⟨h1, by simp only [h1, h2], h3⟩
    | load st =>
      simp only [runOp]
      refine ⟨by simp, ?_⟩
      intro q q' hq hq'; cases hq; cases hq'
      exact ⟨by simp only [h1], h2, h3⟩
  clear h h'
  induction ops generalizing r r' with
  | nil =>
    refine ⟨by simp [runOps], ?_⟩
    intro q q' hq hq'; cases hq; cases hq'; exact h0
  | cons o rest ih =>
    obtain ⟨he, ho⟩ := op o r r' h0
    simp only [runOps]
    cases hq : runOp vw hy c r o with
    | error e =>
      rw [(he e).1 hq]
      exact ⟨fun _ => Iff.rfl, fun q q' h => by cases h⟩
    | ok q =>
      cases hq' : runOp vw hy c r' o with
      | error e => rw [(he e).2 hq'] at hq; cases hq
      | ok q' => exact ih (ho q q' hq hq')

/-! ### C85: recorded rows -/

theorem runOps_append (a b : List (Op X Var)) (r : RSim X W Var V) :
    runOps vw hy c (a ++ b) r = (match runOps vw hy c a r with
      | .ok r' => runOps vw hy c b r'
      | .error e => .error e) := by
  induction a generalizing r with
  | nil => rfl
  | cons o rest ih =>
    simp only [List.cons_append, runOps]
    cases runOp vw hy c r o with
    | error e => rfl
    | ok r' => exact ih r'

/-- Operations that are no record of `v` at time `t` leave the row of time `t` alone. -/
theorem row_kept {v : Var} {t : ℝ} (ops : List (Op X Var)) {r r' : RSim X W Var V}
    (h : runOps vw hy c ops r = .ok r')
    (hl : ∀ a vs b q, ops = a ++ .record vs :: b → Records vw vs v → runOps vw hy c a r = .ok q →
      q.sim.m.t ≠ t) :
    lookup t ((r'.states v).getD []) = lookup t ((r.states v).getD []) := by
  induction ops generalizing r with
  | nil => cases h; rfl
  | cons o rest ih =>
    simp only [runOps] at h
    cases ho : runOp vw hy c r o with
    | error e => rw [ho] at h; cases h
    | ok r1 =>
      rw [ho] at h
      rw [ih h ?_]
      · cases o with
        | step k =>
          simp only [runOp] at ho
          cases hs : simStep hy c k.sub k.retries k.tol k.norm k.dt r.sim with
          | error e => rw [hs] at ho; cases ho
          | ok s => rw [hs] at ho; cases ho; rfl
        | load st => simp only [runOp] at ho; cases ho; rfl
        | record vs =>
          simp only [runOp] at ho; cases ho
          by_cases hr : Records vw vs v
          · simp only [recordState_on hr, Option.getD_some, lookup_dictUpdate]
            rw [if_neg]
            exact hl [] vs rest r rfl hr rfl
          · simp only [recordState_off hr]
      · intro a vs b q hab hr hq
        refine hl (o :: a) vs b q (by rw [hab]; rfl) hr ?_
        simp only [runOps, ho]; exact hq

/-- **C85 (what holds), C86.** In every sequence of steps, reloads and records: the row of a recorded
variable at a time the model passed is the value the model had when it was last recorded at that time.
Later steps, reloads and records at other times do not change it. -/
theorem C85_row_partial {ops1 ops2 : List (Op X Var)} {vs : List Var} {v : Var}
    {r r1 r' : RSim X W Var V} (hv : Records vw vs v)
    (h1 : runOps vw hy c ops1 r = .ok r1)
    (h : runOps vw hy c (ops1 ++ .record vs :: ops2) r = .ok r')
    (hlast : ∀ a vs' b q, ops2 = a ++ .record vs' :: b → Records vw vs' v →
      runOps vw hy c (ops1 ++ .record vs :: a) r = .ok q → q.sim.m.t ≠ r1.sim.m.t) :
    ∃ d, r'.states v = some d ∧ lookup r1.sim.m.t d = some (vw.obs v r1.sim.m.x) := by
  rw [runOps_append, h1] at h
  simp only [runOps, runOp] at h
  have hk := row_kept (v := v) (t := r1.sim.m.t) ops2 h (by
    intro a vs' b q hab hr hq
    refine hlast a vs' b q hab hr ?_
    rw [runOps_append, h1]
    simp only [runOps, runOp]
    exact hq)
  simp only [recordState_on hv, Option.getD_some, lookup_dictUpdate, if_true] at hk
  cases hd : r'.states v with
  | none => rw [hd] at hk; simp [lookup] at hk
  | some d => rw [hd] at hk; exact ⟨d, rfl, hk⟩

/-- **C85 (what holds).** The model a row is taken from is the one a user of the operations sees: a reload
puts the given time and state into the model, whatever came before, so that a record right after it is the
reloaded state under the reloaded time; a step is a simulation step from the model as it is. -/
theorem C85_reload_partial {ops1 ops2 : List (Op X Var)} {vs : List Var} {v : Var} {st : ℝ × X}
    {r r' : RSim X W Var V} (hv : Records vw vs v)
    (h : runOps vw hy c (ops1 ++ .load st :: .record vs :: ops2) r = .ok r')
    (hlast : ∀ a vs' b q, ops2 = a ++ .record vs' :: b → Records vw vs' v →
      runOps vw hy c (ops1 ++ .load st :: .record vs :: a) r = .ok q → q.sim.m.t ≠ st.1) :
    ∃ d, r'.states v = some d ∧ lookup st.1 d = some (vw.obs v st.2) := by
  have e : ∀ b : List (Op X Var), ops1 ++ .load st :: .record vs :: b
      = (ops1 ++ [.load st]) ++ .record vs :: b := by intro b; simp
  rw [e] at h
  cases h1 : runOps vw hy c (ops1 ++ [.load st]) r with
  | error x => rw [runOps_append, h1] at h; cases h
  | ok r1 =>
    have hm : r1.sim.m.t = st.1 ∧ r1.sim.m.x = st.2 := by
      rw [runOps_append] at h1
      cases h0 : runOps vw hy c ops1 r with
      | error x => rw [h0] at h1; cases h1
      | ok r0 =>
        rw [h0] at h1
        simp only [runOps, runOp] at h1
        cases h1
        exact ⟨rfl, rfl⟩
    have := C85_row_partial hv h1 h (by
      intro a vs' b q hab hr hq
      rw [hm.1]
      exact hlast a vs' b q hab hr (by rw [e]; exact hq))
    rwa [hm.1, hm.2] at this

/-- **C85 (what holds).** Conversely every row not present at the beginning was recorded from the model
at that time. -/
theorem C85_only_partial {ops : List (Op X Var)} {v : Var} {r r' : RSim X W Var V}
    (h : runOps vw hy c ops r = .ok r') {e : ℝ × V} (he : e ∈ (r'.states v).getD []) :
    e ∈ (r.states v).getD [] ∨
    ∃ a vs b q, ops = a ++ .record vs :: b ∧ Records vw vs v ∧ runOps vw hy c a r = .ok q ∧
      e = (q.sim.m.t, vw.obs v q.sim.m.x) := by
  induction ops generalizing r with
  | nil => cases h; exact Or.inl he
  | cons o rest ih =>
    simp only [runOps] at h
    cases ho : runOp vw hy c r o with
    | error e => rw [ho] at h; cases h
    | ok r1 =>
      rw [ho] at h
      rcases ih h with h1 | ⟨a, vs, b, q, hab, hr, hq, hee⟩
      · cases o with
        | step k =>
          simp only [runOp] at ho
          cases hs : simStep hy c k.sub k.retries k.tol k.norm k.dt r.sim with
          | error e => rw [hs] at ho; cases ho
          | ok s => rw [hs] at ho; cases ho; exact Or.inl h1
        | load st => simp only [runOp] at ho; cases ho; exact Or.inl h1
        | record vs =>
          simp only [runOp] at ho; cases ho
          by_cases hr : Records vw vs v
          · simp only [recordState_on hr, Option.getD_some] at h1
            rcases mem_dictUpdate h1 with h2 | h2
            · exact Or.inr ⟨[], vs, rest, r, rfl, hr, rfl, h2⟩
            · exact Or.inl h2
          · simp only [recordState_off hr] at h1; exact Or.inl h1
      · exact Or.inr ⟨o :: a, vs, b, q, by rw [hab]; rfl, hr, by simp only [runOps, ho]; exact hq, hee⟩

/-- **C85 (violated).** The row written by the constructor is not the state of the model but the one
saved when its last step began; it is right exactly when the two agree. -/
theorem C85_initial_iff {dflt : ℝ} {dt tStart tEnd : Option ℝ} {method : Option Method}
    {inputs : List (ℝ × List ℝ)} {m : Mdl X W} {r : RSim X W Var V} {v : Var}
    (h : construct vw dflt dt tStart tEnd method inputs m = .ok r)
    (hi : vw.inStates v = true) (hv : v ∈ vw.vars) :
    r.states v = some [(r.sim.m.t, vw.obs v m.saved.2)] ∧ r.sim.m.x = m.x ∧
    (lookup r.sim.m.t ((r.states v).getD []) = some (vw.obs v r.sim.m.x) ↔
      vw.obs v m.saved.2 = vw.obs v m.x) := by
  unfold construct at h
  cases method with
  | none => cases h
  | some me =>
    injection h with h
    subst h
    have hx : (startTime tStart inputs m).1.x = m.x ∧ (startTime tStart inputs m).1.saved = m.saved := by
      cases tStart with
      | some a => exact ⟨rfl, rfl⟩
      | none => cases inputs with
        | nil => exact ⟨rfl, rfl⟩
        | cons i rest => exact ⟨rfl, rfl⟩
    have hs := initStates_eq (vw := vw) (startTime tStart inputs m).1 hi hv
    refine ⟨?_, hx.1, ?_⟩
    · simp only [hs, hx.2]
    · simp only [hs, hx.1, hx.2, Option.getD_some, lookup, if_true, Option.some.injEq]

/-- **C85 (violated).** A simulation built around a model that has just made a step of `dt` (every model
has: its constructor makes one) labels the state *before* that step with the time *after* it. -/
theorem C85_initial_stale {dflt ddt tol : ℝ} {numIter : ℤ} {inp : I} {m0 m : Mdl X W} {e : ℕ}
    {dt tEnd : Option ℝ} {method : Option Method} {r : RSim X W Var V} {v : Var}
    (hm : superStep hy dflt (some ddt) numIter tol inp m0 = .ok (m, e))
    (h : construct vw dflt dt none tEnd method [] m = .ok r)
    (hi : vw.inStates v = true) (hv : v ∈ vw.vars) :
    r.states v = some [(m0.t + ddt, vw.obs v m0.x)] ∧ r.sim.m.t = m0.t + ddt ∧ r.sim.m.x = m.x := by
  obtain ⟨ht, -, hs, -⟩ := C46_step hm
  obtain ⟨h1, h2, -⟩ := C85_initial_iff h hi hv
  have h3 : r.sim.m.t = m.t := by
    unfold construct at h
    cases method with
    | none => cases h
    | some me => injection h with h; subst h; rfl
  rw [h1, h3, ht, hs]
  exact ⟨rfl, rfl, h2⟩

/-- A view of the toy hydraulics of `DriverProps`: its single head. -/
def toyView : View ℝ Unit ℝ := ⟨fun _ x => x, fun _ => true, [()]⟩

/-- **C85 (violated, witness).** After one step of 1 the toy model's head is 1001 at time 1, but the
simulation's record says 1000 at time 1. -/
theorem C85_violated : ∃ (m : Mdl ℝ Unit) (r : RSim ℝ Unit Unit ℝ),
    modelStep toy toyCfg 1 ⟨0, 0, 1000, (0, 1000), ()⟩ = .ok m ∧
    construct toyView 60 none none none (some .linear) [] m = .ok r ∧
    r.sim.m.t = 1 ∧ r.sim.m.x = 1001 ∧ r.states () = some [(1, 1000)] := by
  obtain ⟨r, hr⟩ : ∃ r, construct (vw := toyView) 60 none none none (some Method.linear) []
      (⟨0 + 1, 0 + 1, 1000 + 1 ^ 2, (0, 1000), ()⟩ : Mdl ℝ Unit) = .ok r := ⟨_, rfl⟩
  obtain ⟨h1, h2, -⟩ := C85_initial_iff (v := ()) hr rfl (by simp [toyView])
  obtain ⟨h3, -⟩ := C84_start_partial hr
  have h4 : r.tStart = 0 + 1 := by
    unfold construct at hr
    injection hr with hr; subst hr; rfl
  refine ⟨_, r, toy_step 1 _, hr, ?_, ?_, ?_⟩
  · rw [h3, h4]; norm_num
  · rw [h2]; norm_num
  · rw [h1, h3, h4]; simp [toyView]

/-! ### C86: nothing is lost -/

/-- The usual loop: step, then record everything. -/
def loop (ks : List Call) : List (Op X Var) := ks.flatMap fun k => [.step k, .record []]

/-- **C86.** In the loop "step, record" with positive steps — any subdivisions, any retries — no record is
lost or overwritten: every variable ends with one further row per step, rows appear in the order of strictly
increasing times, and row `i` is time and value of the model after `i + 1` steps. `d` is what had been
recorded before, at times not after the model's. -/
theorem C86_all_rows {v : Var} (hi : vw.inStates v = true) (hv : v ∈ vw.vars) (ks : List Call)
    (hpos : ∀ k ∈ ks, 0 < k.dt) {r r' : RSim X W Var V} {d : List (ℝ × V)} (hd : r.states v = some d)
    (hsort : (d.map Prod.fst).Pairwise (· < ·)) (hle : ∀ e ∈ d, e.1 ≤ r.sim.m.t)
    (h : runOps vw hy c (loop ks) r = .ok r') :
    ∃ l : List (ℝ × V), r'.states v = some (d ++ l) ∧ l.length = ks.length ∧
      (exitFrame (d ++ l)).1.Pairwise (· < ·) ∧ (∀ e ∈ d ++ l, e.1 ≤ r'.sim.m.t) ∧
      ∀ i, i < ks.length → ∃ q, runOps vw hy c (loop (ks.take (i + 1))) r = .ok q ∧
        l[i]? = some (q.sim.m.t, vw.obs v q.sim.m.x) := by
  induction ks generalizing r d with
  | nil =>
    cases h
    exact ⟨[], by simpa using hd, rfl, by simpa [exitFrame] using hsort, by simpa using hle, by simp⟩
  | cons k rest ih =>
    have e0 : ∀ l : List Call, loop (X := X) (Var := Var) (k :: l)
        = .step k :: .record [] :: loop l := fun l => rfl
    rw [e0] at h
    simp only [runOps, runOp] at h
    cases hs : simStep hy c k.sub k.retries k.tol k.norm k.dt r.sim with
    | error e => rw [hs] at h; cases h
    | ok s =>
      rw [hs] at h
      simp only at h
      obtain ⟨j, -, ht, -⟩ := C40_time _ _ hs
      have hlt : r.sim.m.t < s.m.t := by
        rw [ht]
        have : 0 < k.dt / 2 ^ j := div_pos (hpos k (by simp)) (by positivity)
        linarith
      have hr : Records vw [] v := ⟨hi, Or.inl ⟨rfl, hv⟩⟩
      have hst : recordState vw [] s.m r.states v = some (d ++ [(s.m.t, vw.obs v s.m.x)]) := by
        rw [recordState_on hr, hd, Option.getD_some, dictUpdate_new]
        intro e he
        exact ((hle e he).trans_lt hlt).ne
      have key := ih (fun k hk => hpos k (by simp [hk])) (d := d ++ [(s.m.t, vw.obs v s.m.x)])
        (r := { r with sim := s, states := recordState vw [] s.m r.states }) hst (by
          rw [List.map_append, List.pairwise_append]
          refine ⟨hsort, by simp, ?_⟩
          intro a ha b hb
          obtain ⟨e, he, rfl⟩ := List.mem_map.1 ha
          simp only [List.map_cons, List.map_nil, List.mem_singleton] at hb
          rw [hb]; exact (hle e he).trans_lt hlt) (by
          intro e he
          rcases List.mem_append.1 he with he | he
          · exact ((hle e he).trans_lt hlt).le
          · simp only [List.mem_singleton] at he; rw [he]) h
      obtain ⟨l, h1, h2, h3, h4, h5⟩ := key
      refine ⟨(s.m.t, vw.obs v s.m.x) :: l, by simpa using h1, by simp [h2], by simpa using h3,
        by simpa using h4, ?_⟩
      intro i hi'
      cases i with
      | zero =>
        refine ⟨{ r with sim := s, states := recordState vw [] s.m r.states }, ?_, by simp⟩
        simp only [List.take_succ_cons, List.take_zero, e0, runOps, runOp, hs]
        rfl
      | succ i =>
        obtain ⟨q, hq, hl⟩ := h5 i (by simpa using hi')
        refine ⟨q, ?_, by simpa using hl⟩
        simp only [List.take_succ_cons, e0, runOps, runOp, hs]
        exact hq

/-- Non-vacuity: the hypotheses of `C86_all_rows` for a simulation just constructed around the toy model,
and a loop of two adaptive steps that completes. -/
example : ∃ (r r' : RSim ℝ Unit Unit ℝ) (d : List (ℝ × ℝ)),
    construct toyView 60 none none none (some .linear) [] ⟨0, 0, 1000, (0, 1000), ()⟩ = .ok r ∧
    r.states () = some d ∧ (d.map Prod.fst).Pairwise (· < ·) ∧ (∀ e ∈ d, e.1 ≤ r.sim.m.t) ∧
    runOps toyView toy toyCfg (loop [⟨1, 0, 1, 2, 1⟩, ⟨1, 0, 1, 2, 3⟩]) r = .ok r' := by
  obtain ⟨r, hr⟩ : ∃ r, construct (vw := toyView) 60 none none none (some Method.linear) []
      (⟨0, 0, 1000, (0, 1000), ()⟩ : Mdl ℝ Unit) = .ok r := ⟨_, rfl⟩
  obtain ⟨h1, -⟩ := C85_initial_iff (v := ()) hr rfl (by simp [toyView])
  have fin : ∀ x : ℝ, Finite toy x := by intro x j _; simp [toy]
  have st : ∀ (dt : ℝ) (s : Sim ℝ Unit), ∃ s', simStep toy toyCfg 1 0 1 2 dt s = .ok s' := by
    intro dt s
    cases h : simStep toy toyCfg 1 0 1 2 dt s with
    | ok s' => exact ⟨s', rfl⟩
    | error e =>
      simp [simStep, attempt, toy_step, finish, if_pos (fin _)] at h
  obtain ⟨s1, hs1⟩ := st 1 r.sim
  obtain ⟨s2, hs2⟩ := st 3 s1
  have hrun : ∃ r', runOps toyView toy toyCfg (loop [⟨1, 0, 1, 2, 1⟩, ⟨1, 0, 1, 2, 3⟩]) r = .ok r' := by
    simp [loop, runOps, runOp, hs1, hs2]
  obtain ⟨r', hr'⟩ := hrun
  exact ⟨r, r', _, hr, h1, by simp, by simp, hr'⟩

end Pipedream.Record
