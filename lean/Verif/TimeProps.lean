import Verif.RecordModel
import Verif.DriverProps

/-!
# The origin of time is arbitrary (C119)

Shift the clock of the model, the index of every input table and the times of loaded states by `τ`.
-/

namespace Pipedream.Record

open Pipedream.Link Pipedream.Driver Pipedream.Interp

noncomputable section

variable {X W I Var V : Type} [DecidableEq Var]

/-! ### Specification -/

/-- The same object at a time `τ` later. -/
def laterMdl (τ : ℝ) (m : Mdl X W) : Mdl X W := { m with t := m.t + τ, saved := (m.saved.1 + τ, m.saved.2) }

def laterSim (τ : ℝ) (s : Sim X W) : Sim X W := { s with m := laterMdl τ s.m }

/-- The same object at a time `τ` later; nothing is said about the time of the state saved last. -/
structure Later (τ : ℝ) (m m' : Mdl X W) : Prop where
  t : m'.t = m.t + τ
  iter : m'.iter = m.iter
  x : m'.x = m.x
  saved : m'.saved.2 = m.saved.2
  w : m'.w = m.w

/-- Recorded tables with the index shifted. -/
def laterRows (τ : ℝ) (l : List (ℝ × V)) : List (ℝ × V) := l.map fun p => (p.1 + τ, p.2)

/-- A simulation with clock, records, start and end shifted. -/
structure LaterSim (τ : ℝ) (r r' : RSim X W Var V) : Prop where
  m : Later τ r.sim.m r'.sim.m
  dt : r'.sim.dt = r.sim.dt
  dts : r'.sim.dts = r.sim.dts
  errs : r'.sim.errs = r.sim.errs
  iter : r'.sim.iter = r.sim.iter
  tStart : r'.tStart = r.tStart + τ
  tEnd : r'.tEnd = r.tEnd.map (· + τ)
  states : ∀ v, r'.states v = (r.states v).map (laterRows τ)

/-- An input table with its index shifted. -/
def Table.later (τ : ℝ) (T : Table) : Table := { T with time := fun i => T.time i + τ }

/-- Operations at the later time: only loaded states carry a time. -/
def laterOp (τ : ℝ) : Op X Var → Op X Var
  | .load st => .load (st.1 + τ, st.2)
  | o => o

/-- The index of a table, shifted. -/
def laterIdx (τ : ℝ) (i : ℝ × List ℝ) : ℝ × List ℝ := (i.1 + τ, i.2.map (· + τ))

/-! ### Inputs -/

theorem searchsorted_shift (τ : ℝ) (n : ℕ) (xp : ℕ → ℝ) (x : ℝ) :
    searchsorted n (fun i => xp i + τ) (x + τ) = searchsorted n xp x := by
  unfold searchsorted
  exact Nat.find_congr' (by intro i; rw [add_le_add_iff_right])

theorem interpolate_shift (τ : ℝ) (me : Method) (n : ℕ) (xp fp : ℕ → ℝ) (x : ℝ) :
    interpolate me n (fun i => xp i + τ) fp (x + τ) = interpolate me n xp fp x := by
  unfold interpolate
  rw [searchsorted_shift]
  simp only [add_sub_add_right_eq_sub]

/-- **C119, inputs.** Sampling shifted tables at the shifted time gives the same inputs. -/
theorem C119_inputs (τ : ℝ) (me : Method) (kw : Inp) (tQ tH tI : Option Table) (t : ℝ) :
    forcing me kw (tQ.map (Table.later τ)) (tH.map (Table.later τ)) (tI.map (Table.later τ)) (t + τ)
      = forcing me kw tQ tH tI t := by
  have key : ∀ (k : Option (ℕ → ℝ)) (T : Option Table),
      inputAt me k (T.map (Table.later τ)) (t + τ) = inputAt me k T t := by
    intro k T
    unfold inputAt
    cases k with
    | some v => rfl
    | none =>
      cases T with
      | none => rfl
      | some T => simp only [Option.map_some, Table.later, interpolate_shift]
  unfold forcing
  simp only [key]

/-! ### Steps -/

variable (hy : Hydraulics X W I) {τ : ℝ}

theorem onePass_first {dflt : ℝ} {dt : Option ℝ} {inp : I} {m m' : Mdl X W} (h : Later τ m m') :
    onePass hy dflt dt true inp m' = (onePass hy dflt dt true inp m).map (laterMdl τ) := by
  unfold onePass saveState
  simp only [if_true, h.x, h.w, h.t, h.iter]
  cases hy.pass m.x m.x m.w (dt.getD dflt) inp with
  | error e => rfl
  | ok p =>
    cases dt with
    | none => rfl
    | some dt => simp only [Except.map, laterMdl]; congr 2; ring

theorem onePass_again {dflt : ℝ} {dt : Option ℝ} {inp : I} (m : Mdl X W) :
    onePass hy dflt dt false inp (laterMdl τ m) = (onePass hy dflt dt false inp m).map (laterMdl τ) := by
  unfold onePass
  simp only [Bool.false_eq_true, if_false, laterMdl]
  cases hy.pass m.saved.2 m.x m.w (dt.getD dflt) inp with
  | error e => rfl
  | ok p =>
    cases dt with
    | none => rfl
    | some dt => simp only [Except.map]; congr 2; ring

theorem fixLoop_later {dflt dt tol : ℝ} {inp : I} (n : ℕ) (xn : X) (m : Mdl X W) (e : ℕ) :
    fixLoop hy dflt dt tol inp n xn (laterMdl τ m) e
      = (fixLoop hy dflt dt tol inp n xn m e).map fun p => (laterMdl τ p.1, p.2) := by
  induction n generalizing xn m e with
  | zero => rfl
  | succ n ih =>
    unfold fixLoop
    have h : ({ laterMdl τ m with iter := (laterMdl τ m).iter - 1, t := (laterMdl τ m).t - dt } : Mdl X W)
        = laterMdl τ { m with iter := m.iter - 1, t := m.t - dt } := by
      simp only [laterMdl]; congr 1; ring
    rw [h, onePass_again]
    cases onePass hy dflt (some dt) false inp { m with iter := m.iter - 1, t := m.t - dt } with
    | error e => rfl
    | ok m1 =>
      simp only [Except.map]
      by_cases hcl : Close hy tol xn m1.x
      · rw [if_pos hcl, if_pos (show Close hy tol xn (laterMdl τ m1).x from hcl)]
      · rw [if_neg hcl, if_neg (show ¬ Close hy tol xn (laterMdl τ m1).x from hcl), show (laterMdl τ m1).x = m1.x from rfl, ih]
        rfl

theorem superStep_later {dflt : ℝ} {dt : Option ℝ} {k : ℤ} {tol : ℝ} {inp : I} {m m' : Mdl X W} (h : Later τ m m') :
    superStep hy dflt dt k tol inp m' = (superStep hy dflt dt k tol inp m).map fun p => (laterMdl τ p.1, p.2) := by
  unfold superStep
  rw [onePass_first hy h]
  cases onePass hy dflt dt true inp m with
  | error e => rfl
  | ok m1 =>
    cases dt with
    | none => rfl
    | some dt =>
      simp only [Except.map]
      split_ifs
      · rfl
      · contradiction
      · contradiction
      · rw [show (laterMdl τ m1).x = m1.x from rfl, fixLoop_later]; rfl
      · rfl

variable {c c' : Cfg I}

/-- The settings at the later time: the inputs come `τ` later. -/
structure LaterCfg (τ : ℝ) (c c' : Cfg I) : Prop where
  dflt : c'.dflt = c.dflt
  numIter : c'.numIter = c.numIter
  headTol : c'.headTol = c.headTol
  minDt : c'.minDt = c.minDt
  forcing : ∀ t, c'.forcing (t + τ) = c.forcing t

theorem modelStep_later (hc : LaterCfg τ c c') {dt : ℝ} {m m' : Mdl X W} (h : Later τ m m') :
    modelStep hy c' dt m' = (modelStep hy c dt m).map (laterMdl τ) := by
  unfold modelStep
  rw [hc.dflt, hc.numIter, hc.headTol, h.t, show m.t + τ + dt = m.t + dt + τ by ring, hc.forcing, superStep_later hy h]
  cases superStep hy c.dflt (some dt) c.numIter c.headTol (c.forcing (m.t + dt)) m with
  | error e => rfl
  | ok p => rfl

theorem later_self (m : Mdl X W) : Later τ m (laterMdl τ m) := ⟨rfl, rfl, rfl, rfl, rfl⟩

theorem substeps_later (hc : LaterCfg τ c c') {dt : ℝ} (n : ℕ) (m : Mdl X W) :
    substeps hy c' dt n (laterMdl τ m) = (substeps hy c dt n m).map (laterMdl τ) := by
  induction n generalizing m with
  | zero => rfl
  | succ n ih =>
    unfold substeps
    rw [modelStep_later hy hc (later_self m)]
    cases modelStep hy c dt m with
    | error e => rfl
    | ok m1 => exact ih m1

theorem attempt_later (hc : LaterCfg τ c c') {sub : ℕ} {norm : ℤ} {dt : ℝ} {m m' : Mdl X W} (h : Later τ m m') :
    attempt hy c' sub norm dt m' = (attempt hy c sub norm dt m).map fun p => (laterMdl τ p.1, p.2.1, (p.2.2.1 + τ, p.2.2.2)) := by
  unfold attempt
  rw [modelStep_later hy hc h]
  cases modelStep hy c dt m with
  | error e => rfl
  | ok m1 =>
    simp only [Except.map]
    split_ifs
    · have e : loadState hy (laterMdl τ m1).saved (laterMdl τ m1) = laterMdl τ (loadState hy m1.saved m1) := rfl
      rw [e, substeps_later hy hc]
      cases substeps hy c (dt / sub) sub (loadState hy m1.saved m1) with
      | error e => rfl
      | ok m2 =>
        simp only [Except.map, show (laterMdl τ m1).x = m1.x from rfl, show (laterMdl τ m2).x = m2.x from rfl,
          show (laterMdl τ m2).saved.2 = m2.saved.2 from rfl]
        cases normedErr norm hy.M (scaledErr hy m1.x m2.x m2.saved.2) with
        | error e => rfl
        | ok err => rfl
    · rfl

theorem finish_later (s : Sim X W) : finish hy (laterSim τ s) = (finish hy s).map (laterSim τ) := by
  unfold finish
  by_cases hf : Finite hy s.m.x
  · rw [if_pos hf, if_pos (show Finite hy (laterSim τ s).m.x from hf)]; rfl
  · rw [if_neg hf, if_neg (show ¬ Finite hy (laterSim τ s).m.x from hf)]; rfl

/-- **C119, one call of `step`.** Same exception or, with all the same step sizes, retries and error estimates, the
same simulation at a later time. -/
theorem C119_step (hc : LaterCfg τ c c') (sub r : ℕ) (tol : ℝ) (norm : ℤ) (dt : ℝ) (s s' : Sim X W)
    (h : Later τ s.m s'.m) (h1 : s'.dts = s.dts) (h2 : s'.errs = s.errs) (h3 : s'.iter = s.iter) :
    simStep hy c' sub r tol norm dt s' = (simStep hy c sub r tol norm dt s).map (laterSim τ) := by
  induction r generalizing tol norm dt s s' with
  | zero =>
    unfold simStep
    rw [attempt_later hy hc h]
    cases attempt hy c sub norm dt s.m with
    | error e => rfl
    | ok p =>
      simp only [Except.map]
      rw [show record dt (laterMdl τ p.1) p.2.1 s' = laterSim τ (record dt p.1 p.2.1 s) by
        simp [record, laterSim, h1, h2, h3], finish_later]
      rfl
  | succ r ih =>
    unfold simStep
    rw [attempt_later hy hc h]
    cases attempt hy c sub norm dt s.m with
    | error e => rfl
    | ok p =>
      obtain ⟨m1, err, ini⟩ := p
      simp only [Except.map]
      have e : record dt (laterMdl τ m1) err s' = laterSim τ (record dt m1 err s) := by
        simp [record, laterSim, h1, h2, h3]
      rw [e]
      generalize record dt m1 err s = s1
      by_cases hr : err.rejected tol ∧ 0.5 * dt > c.minDt
      · rw [if_pos hr, if_pos (by rw [hc.minDt]; exact hr)]
        have key := ih 1 2 (0.5 * dt) ⟨loadState hy ini m1, s1.dt, s1.dts.tail, s1.errs.tail, s1.iter⟩
          (laterSim τ ⟨loadState hy ini m1, s1.dt, s1.dts.tail, s1.errs.tail, s1.iter⟩) (later_self _) rfl rfl rfl
        have e2 : (⟨loadState hy (ini.1 + τ, ini.2) (laterMdl τ m1), (laterSim τ s1).dt, (laterSim τ s1).dts.tail,
            (laterSim τ s1).errs.tail, (laterSim τ s1).iter⟩ : Sim X W)
            = laterSim τ ⟨loadState hy ini m1, s1.dt, s1.dts.tail, s1.errs.tail, s1.iter⟩ := rfl
        rw [e2, key]
        cases simStep hy c sub r 1 2 (0.5 * dt) ⟨loadState hy ini m1, s1.dt, s1.dts.tail, s1.errs.tail, s1.iter⟩ with
        | error e => rfl
        | ok s2 => exact finish_later hy s2
      · rw [if_neg hr, if_neg (by rw [hc.minDt]; exact hr)]
        exact finish_later hy s1

/-! ### Records -/

theorem dictUpdate_later (k : ℝ) (v : V) (l : List (ℝ × V)) :
    dictUpdate (k + τ) v (laterRows τ l) = laterRows τ (dictUpdate k v l) := by
  induction l with
  | nil => rfl
  | cons p l ih =>
    obtain ⟨a, b⟩ := p
    simp only [laterRows, List.map_cons, dictUpdate, add_left_inj] at ih ⊢
    split_ifs
    · rfl
    · simp only [List.map_cons, ih]

variable (vw : View X Var V)

theorem recordVar_later {m m' : Mdl X W} (h : Later τ m m') {st st' : States Var V}
    (hs : ∀ v, st' v = (st v).map (laterRows τ)) (v : Var) :
    ∀ u, recordVar vw m' st' v u = (recordVar vw m st v u).map (laterRows τ) := by
  intro u
  unfold recordVar
  split_ifs
  · by_cases hu : u = v
    · subst hu
      simp only [if_true, h.t, h.x, hs u, Option.map_some]
      congr 1
      cases st u with
      | none => rw [← dictUpdate_later]; rfl
      | some l => simp only [Option.map_some, Option.getD_some]; exact dictUpdate_later _ _ _
    · simp only [if_neg hu]; exact hs u
  · exact hs u

theorem recordState_later (vs : List Var) {m m' : Mdl X W} (h : Later τ m m') {st st' : States Var V}
    (hs : ∀ v, st' v = (st v).map (laterRows τ)) :
    ∀ u, recordState vw vs m' st' u = (recordState vw vs m st u).map (laterRows τ) := by
  unfold recordState
  generalize (if vs.isEmpty then vw.vars else vs) = l
  induction l generalizing st st' with
  | nil => exact hs
  | cons v l ih => exact ih (recordVar_later vw h hs v)

theorem initStates_later {m m' : Mdl X W} (h : Later τ m m') :
    ∀ u, initStates vw m' u = (initStates vw m u).map (laterRows τ) := by
  have key : ∀ (l : List Var) (st st' : States Var V), (∀ v, st' v = (st v).map (laterRows τ)) →
      ∀ u, l.foldl (initVar vw m') st' u = (l.foldl (initVar vw m) st u).map (laterRows τ) := by
    intro l
    induction l with
    | nil => exact fun st st' hs => hs
    | cons v l ih =>
      intro st st' hs
      refine ih _ _ fun u => ?_
      unfold initVar
      split_ifs
      · by_cases hu : u = v
        · simp only [if_pos hu, h.t, h.saved]; rfl
        · simp only [if_neg hu]; exact hs u
      · exact hs u
  exact key vw.vars _ _ fun _ => rfl

/-! ### Construction -/

theorem foldl_min_later (l : List ℝ) (a : ℝ) : (l.map (· + τ)).foldl min (a + τ) = l.foldl min a + τ := by
  induction l generalizing a with
  | nil => rfl
  | cons b l ih => simp only [List.map_cons, List.foldl_cons, min_add_add_right, ih]

theorem foldl_max_later (l : List ℝ) (a : ℝ) : (l.map (· + τ)).foldl max (a + τ) = l.foldl max a + τ := by
  induction l generalizing a with
  | nil => rfl
  | cons b l ih => simp only [List.map_cons, List.foldl_cons, max_add_add_right, ih]

theorem idxMin_later (i : ℝ × List ℝ) : idxMin (laterIdx τ i) = idxMin i + τ := foldl_min_later _ _
theorem idxMax_later (i : ℝ × List ℝ) : idxMax (laterIdx τ i) = idxMax i + τ := foldl_max_later _ _

/-- Same exception, or the same simulation at a later time. -/
def SameLater {E : Type} (τ : ℝ) : Except E (RSim X W Var V) → Except E (RSim X W Var V) → Prop
  | .error e, .error e' => e' = e
  | .ok r, .ok r' => LaterSim τ r r'
  | _, _ => False

theorem startTime_later (tStart : Option ℝ) (inputs : List (ℝ × List ℝ)) {m m' : Mdl X W}
    (h : Later τ m m' ∨ (tStart = none ∧ inputs ≠ [] ∧ m' = m)) :
    Later τ (startTime tStart inputs m).1 (startTime (tStart.map (· + τ)) (inputs.map (laterIdx τ)) m').1 ∧
    (startTime (tStart.map (· + τ)) (inputs.map (laterIdx τ)) m').2 = (startTime tStart inputs m).2 + τ := by
  cases tStart with
  | some a =>
    rcases h with h | ⟨h, -, -⟩
    · exact ⟨h, rfl⟩
    · exact absurd h (by simp)
  | none =>
    cases inputs with
    | nil =>
      rcases h with h | ⟨-, h, -⟩
      · exact ⟨h, h.t⟩
      · exact absurd rfl h
    | cons i r =>
      have e : ((r.map (laterIdx τ)).map idxMin).foldl min (idxMin (laterIdx τ i))
          = (r.map idxMin).foldl min (idxMin i) + τ := by
        rw [← foldl_min_later, idxMin_later, List.map_map, List.map_map]
        congr 1
        exact List.map_congr_left fun j _ => idxMin_later j
      have hm : m'.iter = m.iter ∧ m'.x = m.x ∧ m'.saved.2 = m.saved.2 ∧ m'.w = m.w := by
        rcases h with h | ⟨-, -, rfl⟩
        · exact ⟨h.iter, h.x, h.saved, h.w⟩
        · exact ⟨rfl, rfl, rfl, rfl⟩
      simp only [startTime, Option.map_none, List.map_cons]
      exact ⟨⟨e, hm.1, hm.2.1, hm.2.2.1, hm.2.2.2⟩, e⟩

theorem endTime_later (tEnd : Option ℝ) (inputs : List (ℝ × List ℝ)) :
    endTime (tEnd.map (· + τ)) (inputs.map (laterIdx τ)) = (endTime tEnd inputs).map (· + τ) := by
  cases tEnd with
  | some b => rfl
  | none =>
    cases inputs with
    | nil => rfl
    | cons i r =>
      have e : ((r.map (laterIdx τ)).map idxMax).foldl max (idxMax (laterIdx τ i))
          = (r.map idxMax).foldl max (idxMax i) + τ := by
        rw [← foldl_max_later, idxMax_later, List.map_map, List.map_map]
        congr 1
        exact List.map_congr_left fun j _ => idxMax_later j
      simp only [endTime, Option.map_none, List.map_cons, e]
      rfl

/-- **C119, construction.** With shifted tables (and shifted start and end times, if given) the simulation begins `τ`
later — from a model whose clock is shifted, or from the very same model when the start is taken from the tables. -/
theorem C119_construct (dflt : ℝ) (dt tStart tEnd : Option ℝ) (me : Option Method) (inputs : List (ℝ × List ℝ))
    {m m' : Mdl X W} (h : Later τ m m' ∨ (tStart = none ∧ inputs ≠ [] ∧ m' = m)) :
    SameLater τ (construct vw dflt dt tStart tEnd me inputs m)
      (construct vw dflt dt (tStart.map (· + τ)) (tEnd.map (· + τ)) me (inputs.map (laterIdx τ)) m') := by
  cases me with
  | none => exact rfl
  | some me =>
    obtain ⟨h1, h2⟩ := startTime_later tStart inputs h
    exact ⟨h1, rfl, rfl, rfl, rfl, h2, endTime_later _ _, initStates_later vw h1⟩

/-! ### Whole runs -/

theorem runOp_later (hc : LaterCfg τ c c') {r r' : RSim X W Var V} (h : LaterSim τ r r') (o : Op X Var) :
    SameLater τ (runOp vw hy c r o) (runOp vw hy c' r' (laterOp τ o)) := by
  cases o with
  | step k =>
    simp only [runOp, laterOp]
    rw [C119_step hy hc k.sub k.retries k.tol k.norm k.dt r.sim r'.sim h.m h.dts h.errs h.iter]
    cases simStep hy c k.sub k.retries k.tol k.norm k.dt r.sim with
    | error e => exact rfl
    | ok s => exact ⟨later_self _, rfl, rfl, rfl, rfl, h.tStart, h.tEnd, h.states⟩
  | record vs => exact ⟨h.m, h.dt, h.dts, h.errs, h.iter, h.tStart, h.tEnd, recordState_later vw vs h.m h.states⟩
  | load st =>
    refine ⟨⟨rfl, h.m.iter, rfl, h.m.saved, ?_⟩, h.dt, h.dts, h.errs, h.iter, h.tStart, h.tEnd, h.states⟩
    simp only [loadState, h.m.w]

/-- **C119.** Whatever a user does in the simulation — steps with retries and subdivisions, recording, loading
states — happens alike `τ` later: same exceptions, same states, same step sizes and errors, same recorded rows under
times shifted by `τ`. -/
theorem C119_run (hc : LaterCfg τ c c') (ops : List (Op X Var)) {r r' : RSim X W Var V} (h : LaterSim τ r r') :
    SameLater τ (runOps vw hy c ops r) (runOps vw hy c' (ops.map (laterOp τ)) r') := by
  induction ops generalizing r r' with
  | nil => exact h
  | cons o ops ih =>
    have k := runOp_later hy vw hc h o
    simp only [List.map_cons, runOps]
    cases h1 : runOp vw hy c r o with
    | error e =>
      cases h2 : runOp vw hy c' r' (laterOp τ o) with
      | error e' => rw [h1, h2] at k; exact k
      | ok _ => rw [h1, h2] at k; exact k.elim
    | ok s =>
      cases h2 : runOp vw hy c' r' (laterOp τ o) with
      | error e' => rw [h1, h2] at k; exact k.elim
      | ok s' => rw [h1, h2] at k; exact ih k

/-- **C119, progress bar.** -/
theorem C119_progress (a b t : ℝ) (num : ℕ) : printProgress (a + τ) (b + τ) (t + τ) num = printProgress a b t num := by
  have e1 : checkpoint (a + τ) (b + τ) = fun i => checkpoint a b i + τ := by
    funext i; unfold checkpoint; ring
  have e2 : bar (a + τ) (b + τ) (t + τ) = bar a b t := by
    unfold bar
    have e : (if t + τ > b + τ then b + τ else t + τ) = (if t > b then b else t) + τ := by
      by_cases h : t > b
      · rw [if_pos h, if_pos (by linarith)]
      · rw [if_neg h, if_neg (by linarith)]
    simp only [e, add_sub_add_right_eq_sub]
  unfold printProgress
  rw [e1, e2, searchsorted_shift]

/-! ### A concrete case

One tank whose head follows an inflow table: the same run later. -/

/-- One tank; the head rises by `dt · Q`. -/
def tankHy : Hydraulics ℝ Unit Inp :=
  ⟨1, fun x _ => some x, fun sv _ w dt i => .ok (sv + dt * ((i.Q_in.getD fun _ => 0) 0), w), fun _ w => w⟩

def tankTable : Table := ⟨2, fun i => 10 * i, fun i _ => i⟩

def tankCfg (τ : ℝ) : Cfg Inp :=
  ⟨1, 1, 0.01, 1, forcing .linear ⟨none, none, none⟩ ((some tankTable).map (Table.later τ)) none none⟩

def tankView : View ℝ Unit ℝ := ⟨fun _ x => x, fun _ => true, [()]⟩

theorem tankLater (τ : ℝ) : LaterCfg τ (tankCfg 0) (tankCfg τ) := by
  refine ⟨rfl, rfl, rfl, rfl, fun t => ?_⟩
  have h1 := C119_inputs τ .linear ⟨none, none, none⟩ (some tankTable) none none t
  have h2 := C119_inputs 0 .linear ⟨none, none, none⟩ (some tankTable) none none t
  rw [add_zero] at h2
  exact h1.trans h2.symm

example (τ : ℝ) (ops : List (Op ℝ Unit)) : ∃ r r' : RSim ℝ Unit Unit ℝ,
    construct tankView 1 none none none (some .linear) [(0, [10])] ⟨0, 0, 5, (0, 5), ()⟩ = .ok r ∧
    construct tankView 1 none none none (some .linear) [(0 + τ, [10 + τ])] ⟨0, 0, 5, (0, 5), ()⟩ = .ok r' ∧
    r'.sim.m.t = r.sim.m.t + τ ∧
    SameLater τ (runOps tankView tankHy (tankCfg 0) ops r) (runOps tankView tankHy (tankCfg τ) (ops.map (laterOp τ)) r') := by
  have h := C119_construct (τ := τ) tankView 1 none none none (some .linear) [(0, [10])]
    (m := (⟨0, 0, 5, (0, 5), ()⟩ : Mdl ℝ Unit)) (.inr ⟨rfl, by simp, rfl⟩)
  refine ⟨_, _, rfl, rfl, ?_, ?_⟩
  · exact h.m.t
  · exact C119_run tankHy tankView (tankLater τ) ops h

end

end Pipedream.Record
