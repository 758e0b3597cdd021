import Verif.BindingModel

/-!
# C104: a model can be built and stepped, with and without numba

With numba every call of a step binds; without it none of the two head-coefficient calls does, so that no
model can even be constructed.
-/

namespace Pipedream.Binding

variable {σ E : Type*}

/-! ### Specification: running the bodies -/

/-- Run bodies in order, stopping at the first exception; no binding involved. -/
def bodies (body : Meth → σ → Except E σ) : List Meth → σ → Except (Exc E) σ
  | [], s => .ok s
  | m :: rest, s =>
    match body m s with
    | .ok s' => bodies body rest s'
    | .error e => .error (.body e)

/-- Calls that all bind do exactly what their bodies do. -/
theorem exec_bodies {sig : Meth → Sig} {body : Meth → σ → Except E σ} {l : List (Meth × List Param)}
    (h : ∀ q ∈ l, binds (sig q.1) q.2 = true) (s : σ) : exec sig body l s = bodies body (l.map Prod.fst) s := by
  induction l generalizing s with
  | nil => rfl
  | cons q rest ih =>
    obtain ⟨m, kw⟩ := q
    have hb : binds (sig m) kw = true := h (m, kw) (by simp)
    simp only [exec, hb, if_true, List.map_cons, bodies]
    cases body m s with
    | ok s' => exact ih (fun q hq => h q (by simp [hq])) s'
    | error e => rfl

/-- A list of calls that contains one that does not bind never completes, whatever the bodies do. -/
theorem exec_stuck {sig : Meth → Sig} {body : Meth → σ → Except E σ} {l : List (Meth × List Param)}
    {q : Meth × List Param} (hq : q ∈ l) (hb : binds (sig q.1) q.2 = false) (s : σ) :
    ∃ e, exec sig body l s = .error e := by
  induction l generalizing s with
  | nil => cases hq
  | cons a rest ih =>
    obtain ⟨m, kw⟩ := a
    simp only [exec]
    by_cases hc : binds (sig m) kw = true
    · rw [if_pos hc]
      cases hbm : body m s with
      | ok s' =>
        rcases List.mem_cons.mp hq with rfl | h
        · simp only at hb; rw [hc] at hb; cases hb
        · exact ih h s'
      | error e => exact ⟨_, rfl⟩
    · rw [if_neg hc]; exact ⟨_, rfl⟩

/-- If moreover no body raises, the exception is the `TypeError` of the binding. -/
theorem exec_stuck_type {sig : Meth → Sig} {body : Meth → σ → Except E σ} {l : List (Meth × List Param)}
    {q : Meth × List Param} (hq : q ∈ l) (hb : binds (sig q.1) q.2 = false)
    (hret : ∀ m s, ∃ s', body m s = .ok s') (s : σ) : exec sig body l s = .error .typeError := by
  induction l generalizing s with
  | nil => cases hq
  | cons a rest ih =>
    obtain ⟨m, kw⟩ := a
    simp only [exec]
    by_cases hc : binds (sig m) kw = true
    · rw [if_pos hc]
      obtain ⟨s', h'⟩ := hret m s
      rw [h']
      rcases List.mem_cons.mp hq with rfl | h
      · simp only at hb; rw [hc] at hb; cases hb
      · exact ih h s'
    · rw [if_neg hc]

/-! ### With numba -/

theorem setup_binds (c : Cfg) (fi : Bool) : ∀ q ∈ setupCalls c fi, binds (sigNumba q.1) q.2 = true := by
  obtain ⟨o, w, p, i, e, b, m⟩ := c
  change ∀ q ∈ setupCalls ⟨o, w, p, i, true, true, .b⟩ fi, binds (sigNumba q.1) q.2 = true
  revert o w p i fi
  decide

theorem solve_binds (c : Cfg) : ∀ q ∈ solveCalls c, binds (sigNumba q.1) q.2 = true := by
  obtain ⟨o, w, p, i, e, b, m⟩ := c
  change ∀ q ∈ solveCalls ⟨o, w, p, true, e, b, m⟩, binds (sigNumba q.1) q.2 = true
  revert o w p e b
  cases m <;> decide

/-- **C104 (with numba).** For every configuration — any combination of controls, damping, exit hydraulics,
solver and internal method — a step of one iteration does exactly what the bodies of its methods do, in the
order of the source: no call fails to bind its arguments, so the only exceptions are those of the bodies. -/
theorem C104_numba_partial (body : Meth → σ → Except E σ) (c : Cfg) (fi : Bool) (conv : σ → σ → Bool) (s : σ) :
    step sigNumba body c true fi conv 1 s =
      bodies body ((setupCalls c fi).map Prod.fst ++ (solveCalls c).map Prod.fst) s := by
  have hsplit : ∀ (l1 l2 : List Meth) (s : σ), bodies body (l1 ++ l2) s =
      (match bodies body l1 s with
        | .ok s' => bodies body l2 s'
        | .error e => .error e) := by
    intro l1 l2
    induction l1 with
    | nil => intro s; rfl
    | cons m rest ih =>
      intro s
      simp only [List.cons_append, bodies]
      cases body m s with
      | ok s' => exact ih s'
      | error e => rfl
  rw [hsplit]
  simp only [step, once, if_true, exec_bodies (setup_binds c fi), exec_bodies (solve_binds c)]
  cases bodies body ((setupCalls c fi).map Prod.fst) s with
  | error e => rfl
  | ok s' =>
    simp only
    cases bodies body ((solveCalls c).map Prod.fst) s' with
    | error e => rfl
    | ok s'' => simp [iterate]

/-- No step with numba, of any number of iterations, raises a `TypeError` of its own. -/
theorem C104_numba_no_type_error_partial (body : Meth → σ → Except E σ) (c : Cfg) (fi : Bool)
    (conv : σ → σ → Bool) (n : ℕ) (s : σ) : step sigNumba body c true fi conv n s ≠ .error .typeError := by
  have hb : ∀ (l : List Meth) (s : σ), bodies body l s ≠ .error .typeError := by
    intro l
    induction l with
    | nil => intro s h; cases h
    | cons m rest ih =>
      intro s h
      simp only [bodies] at h
      cases hm : body m s with
      | ok s' => rw [hm] at h; exact ih s' h
      | error e => rw [hm] at h; cases h
  have ho : ∀ (fi : Bool) (s : σ), once sigNumba body c true fi s ≠ .error .typeError := by
    intro fi s h
    simp only [once, if_true, exec_bodies (setup_binds c fi), exec_bodies (solve_binds c)] at h
    cases h1 : bodies body ((setupCalls c fi).map Prod.fst) s with
    | error e => rw [h1] at h; injection h with h; exact hb _ _ (h ▸ h1)
    | ok s' => rw [h1] at h; exact hb _ _ h
  have hi : ∀ (n : ℕ) (s : σ), iterate sigNumba body c true conv n s ≠ .error .typeError := by
    intro n
    induction n with
    | zero => intro s h; cases h
    | succ n ih =>
      intro s h
      simp only [iterate] at h
      cases h1 : once sigNumba body c true false s with
      | error e => rw [h1] at h; injection h with h; exact ho _ _ (h ▸ h1)
      | ok s' =>
        rw [h1] at h
        simp only at h
        split_ifs at h
        exact ih s' h
  intro h
  simp only [step] at h
  cases h1 : once sigNumba body c true fi s with
  | error e => rw [h1] at h; injection h with h; exact ho _ _ (h ▸ h1)
  | ok s' =>
    rw [h1] at h
    simp only at h
    split_ifs at h
    exact hi _ s' h

/-! ### Without numba -/

/-- **C104 (violated): stepping without numba.** For every configuration, whatever the methods compute and
however many iterations are asked for, a step of the base class never completes; if nothing else goes wrong
it raises `TypeError`. -/
theorem C104_base_step (body : Meth → σ → Except E σ) (c : Cfg) (implicit fi : Bool) (conv : σ → σ → Bool)
    (n : ℕ) (s : σ) :
    (∃ e, step sigBase body c implicit fi conv n s = .error e) ∧
    ((∀ m s, ∃ s', body m s = .ok s') → implicit = true →
      step sigBase body c implicit fi conv n s = .error .typeError) := by
  have hmem : (Meth.upstreamHead, [Param._dt]) ∈ setupCalls c fi := by simp [setupCalls]
  have hno : binds (sigBase Meth.upstreamHead) [Param._dt] = false := by decide
  constructor
  · cases implicit with
    | true =>
      obtain ⟨e, he⟩ := exec_stuck (body := body) hmem hno s
      exact ⟨e, by simp [step, once, he]⟩
    | false =>
      simp only [step, once, Bool.false_eq_true, if_false]
      cases exec sigBase body (opt fi [(.saveState, [])]) s with
      | ok s' => exact ⟨_, rfl⟩
      | error e => exact ⟨_, rfl⟩
  · rintro hret rfl
    simp [step, once, exec_stuck_type (body := body) hmem hno hret s]

/-- **C104 (violated): building without numba.** Without numba no network, however described, can be
constructed. -/
theorem C104_base_construct (body : Meth → σ → Except E σ) (c : Cfg) (conv : σ → σ → Bool)
    (build : Except E σ) : ∃ e, construct sigBase body c conv build = .error e := by
  cases build with
  | ok s => exact (C104_base_step body c true true conv 1 s).1
  | error e => exact ⟨_, rfl⟩

/-- The calls that fail are exactly the two of the head coefficients: with these two signatures repaired the
base class binds every call. -/
theorem C104_only_two (c : Cfg) (fi : Bool) (q : Meth × List Param) (hq : q ∈ setupCalls c fi ++ solveCalls c) :
    binds (sigBase q.1) q.2 = false ↔ q.1 = .upstreamHead ∨ q.1 = .downstreamHead := by
  have h1 : ∀ (o w p i fi : Bool), ∀ q ∈ setupCalls ⟨o, w, p, i, true, true, .b⟩ fi,
      (binds (sigBase q.1) q.2 = false ↔ q.1 = .upstreamHead ∨ q.1 = .downstreamHead) := by decide
  have h2 : ∀ (m : Internals) (o w p e b : Bool), ∀ q ∈ solveCalls ⟨o, w, p, true, e, b, m⟩,
      (binds (sigBase q.1) q.2 = false ↔ q.1 = .upstreamHead ∨ q.1 = .downstreamHead) := by
    intro m; cases m <;> decide
  rcases List.mem_append.mp hq with hq | hq
  · exact h1 c.orifices c.weirs c.pumps c.inertialDamping fi q hq
  · exact h2 c.method c.orifices c.weirs c.pumps c.exitHydraulics c.banded q hq

/-- Non-vacuity: bodies that count calls; the step with numba runs all 19 of a plain configuration. -/
example : step sigNumba (E := Empty) (fun _ (n : ℕ) => .ok (n + 1)) ⟨false, false, false, false, false, false, .b⟩
    true true (fun _ _ => true) 1 0 = .ok 19 := by
  rfl

/-! ### The order of the calls -/

/-- Which methods a step needs (specification): the structures that exist, the options that are set. -/
def wanted (c : Cfg) (first_iter : Bool) : Meth → Bool
  | .saveState => first_iter
  | .orificeGeometry | .orificeCoeffs | .solveOrifices => c.orifices
  | .weirCoeffs | .solveWeirs => c.weirs
  | .pumpCoeffs | .solvePumps => c.pumps
  | .flowRegime => c.inertialDamping
  | .solveBanded => c.banded
  | .solveSparse => !c.banded
  | .exitConditions | .criticalDepth | .exitHydraulics => c.exitHydraulics
  | .internalsBackwards => c.method = .b
  | .internalsForwards => c.method = .f
  | .internalsNnls => c.method = .nnls
  | .internalsLsq => c.method = .lsq
  | _ => true

/-- Whose results of the same step a method reads (specification). -/
def readsFrom : Meth → List Meth
  | .saveState => []
  | .flowRegime => [.saveState, .linkGeometry]
  | .nodeVelocities => [.saveState, .linkGeometry]
  | .linkCoeffs => [.saveState, .linkGeometry, .nodeVelocities, .flowRegime]
  | .nodeCoeffs => [.saveState, .linkGeometry, .upstreamGeometry, .downstreamGeometry]
  | .forwardRecurrence | .backwardRecurrence => [.saveState, .linkCoeffs, .nodeCoeffs]
  | .upstreamHead => [.saveState, .upstreamGeometry]
  | .downstreamHead => [.saveState, .downstreamGeometry]
  | .flowCoeffs => [.saveState, .forwardRecurrence, .backwardRecurrence, .upstreamHead, .downstreamHead, .nodeCoeffs]
  | .orificeCoeffs => [.saveState, .orificeGeometry]
  | .matrixEquations => [.saveState, .storageAreas, .flowCoeffs, .orificeCoeffs, .weirCoeffs, .pumpCoeffs]
  | .solveBanded | .solveSparse => [.saveState, .matrixEquations]
  | .solveFlows => [.saveState, .flowCoeffs, .solveBanded, .solveSparse]
  | .solveOrifices => [.saveState, .orificeGeometry, .storageVolumes, .solveBanded, .solveSparse]
  | .solveWeirs | .solvePumps => [.saveState, .solveBanded, .solveSparse]
  | .solveDepths => [.saveState, .upstreamHead, .downstreamHead, .solveBanded, .solveSparse, .solveFlows]
  | .exitConditions => [.saveState, .solveBanded, .solveSparse, .solveFlows, .solveDepths]
  | .criticalDepth => [.saveState, .solveFlows]
  | .exitHydraulics => [.saveState, .exitConditions, .criticalDepth, .solveDepths]
  | .internalsBackwards | .internalsForwards | .internalsNnls | .internalsLsq =>
    [.saveState, .forwardRecurrence, .backwardRecurrence, .solveFlows, .solveDepths, .exitHydraulics]
  | _ => [.saveState]

theorem opt_sublist {α : Type*} (b : Bool) (x : List α) : (opt b x).Sublist x := by
  cases b
  · exact List.nil_sublist _
  · exact List.Sublist.refl _

/-- All methods in the order of the calls; a step leaves some out. -/
def callOrder : List Meth :=
  ([.saveState] ++ [.linkGeometry, .upstreamGeometry, .downstreamGeometry, .storageAreas, .storageVolumes, .nodeVelocities]
    ++ [.orificeGeometry] ++ [.flowRegime] ++ [.linkCoeffs, .nodeCoeffs, .forwardRecurrence, .backwardRecurrence,
      .upstreamHead, .downstreamHead, .flowCoeffs] ++ [.orificeCoeffs] ++ [.weirCoeffs] ++ [.pumpCoeffs]
    ++ [.matrixEquations]) ++
  ([.solveBanded, .solveSparse] ++ [.solveFlows] ++ [.solveOrifices] ++ [.solveWeirs] ++ [.solvePumps] ++ [.solveDepths]
    ++ [.exitConditions, .criticalDepth, .exitHydraulics]
    ++ [.internalsBackwards, .internalsForwards, .internalsNnls, .internalsLsq])

theorem map_opt {α β : Type*} (f : α → β) (b : Bool) (x : List α) : (opt b x).map f = opt b (x.map f) := by
  cases b <;> rfl

theorem calls_sublist (c : Cfg) (fi : Bool) :
    ((setupCalls c fi ++ solveCalls c).map Prod.fst).Sublist callOrder := by
  unfold setupCalls solveCalls callOrder
  simp only [List.map_append, map_opt]
  repeat' apply List.Sublist.append
  any_goals exact opt_sublist _ _
  any_goals exact List.Sublist.refl _
  · cases c.banded <;> decide
  · cases c.method <;> decide

/-- **C104.** A step runs every method it needs exactly once and no other, and none before a method whose results it
reads. -/
theorem C104_order (c : Cfg) (fi : Bool) :
    let ms := (setupCalls c fi ++ solveCalls c).map Prod.fst
    (∀ m, m ∈ ms ↔ wanted c fi m = true) ∧ ms.Nodup ∧ ms.Pairwise (fun a b => b ∉ readsFrom a) := by
  refine ⟨fun q => ?_, (calls_sublist c fi).nodup (by decide), (show callOrder.Pairwise _ by decide).sublist
    (calls_sublist c fi)⟩
  obtain ⟨o, w, p, d, e, b, m⟩ := c
  have hopt : ∀ (y : Bool) (x : List Meth), q ∈ opt y x ↔ y = true ∧ q ∈ x := by
    intro y x; cases y <;> simp [opt]
  unfold setupCalls solveCalls
  simp only [List.map_append, map_opt, List.mem_append, hopt, List.map_cons, List.map_nil]
  cases q <;> cases b <;> cases m <;> simp [wanted]

/-- The states after 0, 1, 2, … passes (specification): the first pass with the flag of the caller, the others without. -/
def passes (f : Bool → σ → σ) (fi : Bool) (s : σ) : ℕ → σ
  | 0 => s
  | 1 => f fi s
  | n + 2 => f false (passes f fi s (n + 1))

theorem iterate_passes {body : Meth → σ → Except E σ} {c : Cfg} {conv : σ → σ → Bool} {f : Bool → σ → σ} {fi : Bool}
    {s : σ} (ho : ∀ b s, once sigNumba body c true b s = .ok (f b s)) (n i : ℕ) :
    ∃ m, m ≤ n ∧ iterate sigNumba body c true conv n (passes f fi s (i + 1)) = .ok (passes f fi s (i + 1 + m)) ∧
      (∀ a, a + 1 < m → conv (passes f fi s (i + 1 + a)) (passes f fi s (i + 2 + a)) = false) ∧
      (m = n ∨ ∃ p, m = p + 1 ∧ conv (passes f fi s (i + 1 + p)) (passes f fi s (i + 2 + p)) = true) := by
  induction n generalizing i with
  | zero => exact ⟨0, Nat.le_refl _, rfl, fun a ha => absurd ha (by omega), Or.inl rfl⟩
  | succ n ih =>
    simp only [iterate, ho]
    have e : f false (passes f fi s (i + 1)) = passes f fi s (i + 1 + 1) := rfl
    rw [e]
    by_cases hc : conv (passes f fi s (i + 1)) (passes f fi s (i + 1 + 1)) = true
    · rw [if_pos hc]
      exact ⟨1, by omega, rfl, fun a ha => absurd ha (by omega), Or.inr ⟨0, rfl, hc⟩⟩
    · rw [if_neg hc]
      obtain ⟨m, hm, hit, hlt, hend⟩ := ih (i + 1)
      refine ⟨m + 1, by omega, ?_, ?_, ?_⟩
      · rw [hit]; congr 2; omega
      · intro a ha
        cases a with
        | zero => simpa using hc
        | succ a =>
          have := hlt a (by omega)
          rw [show i + 1 + (a + 1) = i + 1 + 1 + a by omega, show i + 2 + (a + 1) = i + 1 + 2 + a by omega]
          exact this
      · rcases hend with h | ⟨p, hp, hcv⟩
        · exact Or.inl (by omega)
        · refine Or.inr ⟨p + 1, by omega, ?_⟩
          rw [show i + 1 + (p + 1) = i + 1 + 1 + p by omega, show i + 2 + (p + 1) = i + 1 + 2 + p by omega]
          exact hcv

/-- **C104 (iterations).** When the routines do not raise, `step` makes between one and `num_iter` passes over its
methods (one if `num_iter` is zero), stops after the first pass that changed nothing beyond the tolerance, and only
the first pass is told that it is the first. -/
theorem C104_iterations {body : Meth → σ → Except E σ} {c : Cfg} {conv : σ → σ → Bool} {f : Bool → σ → σ} {fi : Bool}
    (hf : ∀ b s, bodies body ((setupCalls c b ++ solveCalls c).map Prod.fst) s = .ok (f b s)) (num_iter : ℕ) (s : σ) :
    ∃ m, 1 ≤ m ∧ m ≤ max 1 num_iter ∧ step sigNumba body c true fi conv num_iter s = .ok (passes f fi s m) ∧
      (∀ a, a + 1 < m → conv (passes f fi s a) (passes f fi s (a + 1)) = false) ∧
      (m = max 1 num_iter ∨ ∃ p, m = p + 1 ∧ conv (passes f fi s p) (passes f fi s (p + 1)) = true) := by
  have ho : ∀ b s, once sigNumba body c true b s = .ok (f b s) := by
    intro b s
    have h1 := C104_numba_partial body c b (fun _ _ => true) s
    rw [← List.map_append, hf] at h1
    simp only [step] at h1
    cases h2 : once sigNumba body c true b s with
    | ok s' => rw [h2] at h1; simpa using h1
    | error e => rw [h2] at h1; cases h1
  have hmax : max 1 num_iter = num_iter - 1 + 1 := by
    cases num_iter with
    | zero => rfl
    | succ n => rw [Nat.max_def, if_pos (Nat.succ_le_succ (Nat.zero_le n))]; rfl
  simp only [step, ho]
  have e : f fi s = passes f fi s 1 := rfl
  rw [e]
  by_cases hc : conv s (passes f fi s 1) = true
  · rw [if_pos hc]
    exact ⟨1, Nat.le_refl _, Nat.le_max_left _ _, rfl, fun a ha => absurd ha (by omega), Or.inr ⟨0, rfl, hc⟩⟩
  · rw [if_neg hc]
    obtain ⟨m, hm, hit, hlt, hend⟩ := iterate_passes (conv := conv) (fi := fi) (s := s) ho (num_iter - 1) 0
    rw [hmax]
    refine ⟨m + 1, Nat.le_add_left _ _, Nat.succ_le_succ hm, ?_, ?_, ?_⟩
    · rw [hit]; congr 2; omega
    · intro a ha
      cases a with
      | zero => exact Bool.eq_false_iff.mpr hc
      | succ a =>
        have := hlt a (by omega)
        rw [show a + 1 = 0 + 1 + a by omega, show 0 + 1 + a + 1 = 0 + 2 + a by omega]
        exact this
    · rcases hend with h | ⟨p, hp, hcv⟩
      · exact Or.inl (by omega)
      · refine Or.inr ⟨p + 1, by omega, ?_⟩
        rw [show p + 1 = 0 + 1 + p by omega, show 0 + 1 + p + 1 = 0 + 2 + p by omega]
        exact hcv

/-- The hypothesis is met: routines that count their calls. -/
example (c : Cfg) (b : Bool) (s : ℕ) :
    bodies (E := Empty) (fun _ n => .ok (n + 1)) ((setupCalls c b ++ solveCalls c).map Prod.fst) s
      = .ok (s + ((setupCalls c b ++ solveCalls c).map Prod.fst).length) := by
  generalize (setupCalls c b ++ solveCalls c).map Prod.fst = l
  induction l generalizing s with
  | nil => rfl
  | cons m l ih => simp only [bodies, ih, List.length_cons]; congr 1; omega

end Pipedream.Binding
