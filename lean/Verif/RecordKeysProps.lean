import Verif.RecordProps

/-!
# C203: which of the variables a user asks for end up as tables

`record_state(state_variables)` takes the variables to record; leaving the `with` block turns records into
tables. The names involved are fixed lists in the code (`save_state`, `Simulation.__init__`), reproduced
here, so that the question "is the variable I asked for in `simulation.states`, and is it a table?" has a
definite answer for each name.
-/

namespace Pipedream.Record

open Driver

variable {X W I V : Type}

/-- The keys of `model.states` after `save_state` — superlink.py 3906–3928. The flows of orifices, weirs
and pumps are keys only if the model has such elements. -/
def savedKeys (nO nW nP : ℕ) : List String :=
  ["t", "H_j", "h_Ik", "Q_ik", "Q_uk", "Q_dk", "x_Ik"] ++
    (if nO = 0 then [] else ["Q_o"]) ++ (if nW = 0 then [] else ["Q_w"]) ++
    (if nP = 0 then [] else ["Q_p"]) ++ ["A_ik", "A_uk", "A_dk", "A_sj", "V_j"]

/-- The keys of `self.state_variables` — simulation.py 142–150. -/
def stateVars : List String :=
  ["H_j", "h_Ik", "Q_ik", "Q_uk", "Q_dk", "Q_o", "Q_w", "Q_p", "x_Ik"]

/-- How the variables of a model with `nO` orifices, `nW` weirs and `nP` pumps are recorded; `obs` is
`getattr(model, ·)` — simulation.py 142–150, 278–283. -/
def modelView (obs : String → X → V) (nO nW nP : ℕ) : View X String V where
  obs := obs
  inStates := fun v => decide (v ∈ savedKeys nO nW nP)
  vars := stateVars

/-- What an attribute of `simulation.states` is: a dict while the block runs, a table (index, rows) after
`__exit__` has converted it. -/
inductive Cell (V : Type)
  | dict (d : List (ℝ × V))
  | frame (f : List ℝ × List V)

/-- The attributes of `simulation.states` after `__exit__` — simulation.py 237–247: the loop runs over the
keys of `self.state_variables` and converts those that are attributes. Column labels: C69. -/
def exitStates (vw : View X String V) (st : States String V) : String → Option (Cell V) := fun v =>
  match st v with
  | none => none
  | some d => if v ∈ vw.vars then some (.frame (exitFrame d)) else some (.dict d)

/-! ### Specification -/

/-- `v` is available as a table that has the row `a` at time `t`. -/
def HasRow (res : String → Option (Cell V)) (v : String) (t : ℝ) (a : V) : Prop :=
  ∃ (f : List ℝ × List V) (i : ℕ), res v = some (.frame f) ∧ f.1[i]? = some t ∧ f.2[i]? = some a

theorem lookup_getElem {t : ℝ} {a : V} {d : List (ℝ × V)} (h : lookup t d = some a) :
    ∃ i : ℕ, (d.map Prod.fst)[i]? = some t ∧ (d.map Prod.snd)[i]? = some a := by
  induction d with
  | nil => simp [lookup] at h
  | cons e r ih =>
    simp only [lookup] at h
    by_cases he : e.1 = t
    · simp only [he, if_true, Option.some.injEq] at h
      exact ⟨0, by simp [he], by simp [h]⟩
    · simp only [he, if_false] at h
      obtain ⟨i, h1, h2⟩ := ih h
      exact ⟨i + 1, by simpa using h1, by simpa using h2⟩

theorem lookup_update (t : ℝ) (a : V) (d : List (ℝ × V)) : lookup t (dictUpdate t a d) = some a := by
  induction d with
  | nil => simp [dictUpdate, lookup]
  | cons e r ih =>
    by_cases he : e.1 = t
    · simp [dictUpdate, lookup, he]
    · simp [dictUpdate, lookup, he, ih]

/-- **C203 (in part).** A variable asked for in `record_state` (a non-empty argument naming it) that is one
of the nine state variables, and is saved by the model, is a table after the block, with a row holding its
value at the time of the record. Missing: the other variables, see `C203_asked_iff`. -/
theorem C203_tables_partial (obs : String → X → V) (nO nW nP : ℕ) (vs : List String) (m : Mdl X W)
    (st : States String V) {v : String} (hv : v ∈ vs) (hs : v ∈ savedKeys nO nW nP)
    (ht : v ∈ stateVars) :
    HasRow (exitStates (modelView obs nO nW nP) (recordState (modelView obs nO nW nP) vs m st)) v
      m.t (obs v m.x) := by
  have hr : Records (modelView obs nO nW nP) vs v := ⟨by simpa [modelView] using hs, Or.inr hv⟩
  have h := recordState_on (m := m) (st := st) hr
  obtain ⟨i, h1, h2⟩ := lookup_getElem (lookup_update m.t (obs v m.x) ((st v).getD []))
  refine ⟨exitFrame (dictUpdate m.t (obs v m.x) ((st v).getD [])), i, ?_, h1, h2⟩
  unfold exitStates
  rw [h]
  have : v ∈ (modelView obs nO nW nP).vars := ht
  simp only [this, if_true]
  rfl

/-- **C203 (violated).** Of the variables asked for in a first call of `record_state`, exactly those that
are both saved by the model and among the nine state variables become tables. -/
theorem C203_asked_iff (obs : String → X → V) (nO nW nP : ℕ) (vs : List String) (m : Mdl X W)
    (st : States String V) {v : String} (hv : v ∈ vs) (hst : st v = none) :
    HasRow (exitStates (modelView obs nO nW nP) (recordState (modelView obs nO nW nP) vs m st)) v
      m.t (obs v m.x) ↔ v ∈ savedKeys nO nW nP ∧ v ∈ stateVars := by
  refine ⟨?_, fun h => C203_tables_partial obs nO nW nP vs m st hv h.1 h.2⟩
  rintro ⟨f, i, h, -⟩
  unfold exitStates at h
  by_cases hs : v ∈ savedKeys nO nW nP
  · refine ⟨hs, ?_⟩
    by_contra hn
    have hn' : v ∉ (modelView obs nO nW nP).vars := hn
    have hr : Records (modelView obs nO nW nP) vs v := ⟨by simpa [modelView] using hs, Or.inr hv⟩
    rw [recordState_on hr] at h
    simp [hn'] at h
  · exfalso
    have hr : ¬ Records (modelView obs nO nW nP) vs v := fun h => by
      have := h.1
      simp [modelView, hs] at this
    rw [recordState_off hr, hst] at h
    simp at h

/-- **C203 (violated).** A variable that the model does not save is not recorded at all, and nothing is
raised: whatever is asked, stepped and reloaded, it does not appear in the results. -/
theorem C203_dropped (obs : String → X → V) (nO nW nP : ℕ) {v : String}
    (hs : v ∉ savedKeys nO nW nP) {hy : Hydraulics X W I} {c : Cfg I} (ops : List (Op X String)) :
    ∀ {r r' : RSim X W String V}, r.states v = none →
      runOps (modelView obs nO nW nP) hy c ops r = .ok r' →
      exitStates (modelView obs nO nW nP) r'.states v = none := by
  induction ops with
  | nil =>
    intro r r' h0 h
    cases h
    simp [exitStates, h0]
  | cons o rest ih =>
    intro r r' h0 h
    simp only [runOps] at h
    cases ho : runOp (modelView obs nO nW nP) hy c r o with
    | error e => rw [ho] at h; cases h
    | ok q =>
      rw [ho] at h
      refine ih ?_ h
      cases o with
      | step k =>
        simp only [runOp] at ho
        cases hk : simStep hy c k.sub k.retries k.tol k.norm k.dt r.sim with
        | error e => rw [hk] at ho; cases ho
        | ok s => rw [hk] at ho; cases ho; exact h0
      | load st => simp only [runOp] at ho; cases ho; exact h0
      | record vs =>
        simp only [runOp] at ho; cases ho
        have hr : ¬ Records (modelView obs nO nW nP) vs v := fun h => by
          have := h.1
          simp [modelView, hs] at this
        simpa only [recordState_off hr] using h0

/-- **C203 (violated, witnesses).** Hydraulic radius `R_ik` and top width `B_ik`, public properties of the
model (superlink.py 863–877), are dropped; the flow areas `A_ik` and the stored volume `V_j` are kept but
stay dicts; and in a model without pumps `Q_p` is dropped. -/
theorem C203_violated (obs : String → X → V) (nO nW nP : ℕ) (m : Mdl X W) (st : States String V)
    (h0 : ∀ v, st v = none) :
    (∀ v ∈ ["R_ik", "B_ik"], exitStates (modelView obs nO nW nP)
      (recordState (modelView obs nO nW nP) [v] m st) v = none) ∧
    (∀ v ∈ ["A_ik", "V_j"], exitStates (modelView obs nO nW nP)
      (recordState (modelView obs nO nW nP) [v] m st) v = some (.dict [(m.t, obs v m.x)])) ∧
    (nP = 0 → exitStates (modelView obs nO nW nP)
      (recordState (modelView obs nO nW nP) ["Q_p"] m st) "Q_p" = none) := by
  have off : ∀ v, v ∉ savedKeys nO nW nP → exitStates (modelView obs nO nW nP)
      (recordState (modelView obs nO nW nP) [v] m st) v = none := by
    intro v hv
    have hr : ¬ Records (modelView obs nO nW nP) [v] v := fun h => by
      have := h.1
      simp [modelView, hv] at this
    unfold exitStates
    rw [recordState_off hr, h0]
  have on : ∀ v, v ∈ savedKeys nO nW nP → v ∉ stateVars → exitStates (modelView obs nO nW nP)
      (recordState (modelView obs nO nW nP) [v] m st) v = some (.dict [(m.t, obs v m.x)]) := by
    intro v hv hn
    have hr : Records (modelView obs nO nW nP) [v] v :=
      ⟨by simpa [modelView] using hv, Or.inr (by simp)⟩
    have hn' : v ∉ (modelView obs nO nW nP).vars := hn
    unfold exitStates
    rw [recordState_on hr, h0]
    simp only [hn', if_false, Option.getD_none, dictUpdate]
    rfl
  refine ⟨?_, ?_, ?_⟩
  · intro v hv
    apply off
    simp only [List.mem_cons, List.not_mem_nil, or_false] at hv
    rcases hv with rfl | rfl <;> unfold savedKeys <;> split_ifs <;> simp
  · intro v hv
    simp only [List.mem_cons, List.not_mem_nil, or_false] at hv
    rcases hv with rfl | rfl <;> refine on _ ?_ ?_ <;> simp [savedKeys, stateVars]
  · intro hP
    apply off
    unfold savedKeys
    rw [if_pos hP]
    split_ifs <;> simp

/-- **C203.** The plain call `record_state()` of the documentation records every one of the nine variables
that the model has: heads, depths, positions and flows always, those of orifices, weirs and pumps exactly
if there are any. -/
theorem C203_default (obs : String → X → V) (nO nW nP : ℕ) (m : Mdl X W) (st : States String V)
    (hst : ∀ v, st v = none) {v : String} (hv : v ∈ stateVars) :
    HasRow (exitStates (modelView obs nO nW nP) (recordState (modelView obs nO nW nP) [] m st)) v
      m.t (obs v m.x) ↔ (v = "Q_o" → nO ≠ 0) ∧ (v = "Q_w" → nW ≠ 0) ∧ (v = "Q_p" → nP ≠ 0) := by
  have key : v ∈ savedKeys nO nW nP ↔
      (v = "Q_o" → nO ≠ 0) ∧ (v = "Q_w" → nW ≠ 0) ∧ (v = "Q_p" → nP ≠ 0) := by
    simp only [stateVars, List.mem_cons, List.not_mem_nil, or_false] at hv
    rcases hv with rfl | rfl | rfl | rfl | rfl | rfl | rfl | rfl | rfl <;>
      unfold savedKeys <;> by_cases hO : nO = 0 <;> by_cases hW : nW = 0 <;>
      by_cases hP : nP = 0 <;> simp [hO, hW, hP]
  rw [← key]
  have e : recordState (modelView obs nO nW nP) [] m st
      = recordState (modelView obs nO nW nP) stateVars m st := by
    simp [recordState, modelView, stateVars]
  rw [e, C203_asked_iff obs nO nW nP stateVars m st hv (hst v)]
  exact ⟨fun h => h.1, fun h => ⟨h, hv⟩⟩

/-- Non-vacuity: `Q_o` asked for in a model with one orifice. -/
example : HasRow (exitStates (modelView (fun _ (x : ℝ) => x) 1 0 0)
    (recordState (modelView (fun _ (x : ℝ) => x) 1 0 0) ["Q_o"]
      (⟨3, 3, 7, (0, 1), ()⟩ : Mdl ℝ Unit) (fun _ => none))) "Q_o" 3 7 :=
  C203_tables_partial (fun _ (x : ℝ) => x) 1 0 0 ["Q_o"] (⟨3, 3, 7, (0, 1), ()⟩ : Mdl ℝ Unit)
    (fun _ => none) (by simp) (by simp [savedKeys]) (by simp [stateVars])

end Pipedream.Record
