import Verif.ViewModel
import Verif.HeapProps
import Mathlib.Tactic.NormNum
import Mathlib.Data.Rat.Floor

/-!
# C129, C130: what the user read, and what the user assigned

C129: a value read from the model is a snapshot, and an array assigned to the model stays the
user's.  This holds for heads, end flows and control flows, and fails for depths, flows, areas,
storage areas and volumes, whose arrays every step overwrites.

C130: the element type of an assigned array does not matter.  It does: an integer array stays one.
-/

namespace Pipedream.Heap

variable {V : Type*}

/-! ### Specification -/

/-- The attributes whose arrays a step writes into whatever the method. -/
def overwritten (a : Attr) : Prop :=
  a = .h_Ik ∨ a = .A_ik ∨ a = .A_uk ∨ a = .A_dk ∨ a = .A_sj ∨ a = .V_j ∨ a = .other 0 ∨
    a = .other 1 ∨ a = .other 2

/-- The methods that march through the superlinks. -/
def marching (c : Conf) : Prop := c.method = .b ∨ c.method = .f

/-- The array at `r` cannot be reached by the writes of a step: it exists, and no overwritten
attribute refers to it, nor `Q_ik` if a marching method is used. -/
structure Kept (march : Prop) (r : ℕ) (m : Mem V) : Prop where
  lt : r < m.next
  ne : ∀ a, overwritten a → m.attr a ≠ r
  neQ : march → m.attr .Q_ik ≠ r

/-- Every effect of a list is a write to one of the attributes satisfying `P`, or a binding. -/
def WritesOnly (P : Attr → Prop) (es : List Eff) : Prop := ∀ a, Eff.write a ∈ es → P a

/-- No effect of the list binds `a`. -/
def NeverBinds (a : Attr) (es : List Eff) : Prop := Eff.bind a ∉ es

/-! ### Lemmas -/

theorem saveKey_attr (m : Mem V) (k : Attr) : (saveKey m k).attr = m.attr := rfl

theorem saveKey_heap {m : Mem V} {r : ℕ} (h : r < m.next) (k : Attr) :
    (saveKey m k).heap r = m.heap r := if_neg h.ne

theorem saveState_attr (m : Mem V) (n_o n_w n_p : ℕ) :
    (saveState n_o n_w n_p m).attr = m.attr := by
  unfold saveState
  generalize savedKeys n_o n_w n_p = ks
  induction ks generalizing m with
  | nil => rfl
  | cons k ks ih => exact ih (saveKey m k)

theorem saveState_frame {m : Mem V} {r : ℕ} (h : r < m.next) (n_o n_w n_p : ℕ) :
    r < (saveState n_o n_w n_p m).next ∧ (saveState n_o n_w n_p m).heap r = m.heap r ∧
      (saveState n_o n_w n_p m).attr = m.attr ∧ (saveState n_o n_w n_p m).ext = m.ext := by
  unfold saveState
  generalize savedKeys n_o n_w n_p = ks
  induction ks generalizing m with
  | nil => exact ⟨h, rfl, rfl, rfl⟩
  | cons k ks ih =>
    obtain ⟨h1, h2, h3, h4⟩ := ih (m := saveKey m k) (h.trans (Nat.lt_succ_self _))
    exact ⟨h1, h2.trans (saveKey_heap h k), h3, h4⟩

theorem runEffs_kept {f : Mem V → Eff → V} {P : Attr → Prop} {r : ℕ} {es : List Eff} :
    ∀ {m : Mem V}, WritesOnly P es → r < m.next → (∀ a, P a → m.attr a ≠ r) →
    r < (runEffs f es m).next ∧ (runEffs f es m).heap r = m.heap r ∧
      ∀ a, m.attr a ≠ r → (runEffs f es m).attr a ≠ r := by
  induction es with
  | nil => intro m _ h _; exact ⟨h, rfl, fun _ h => h⟩
  | cons e es ih =>
    intro m hw hr hP
    have hw' : WritesOnly P es := fun a ha => hw a (List.mem_cons_of_mem _ ha)
    cases e with
    | write a =>
      have hne : m.attr a ≠ r := hP a (hw a List.mem_cons_self)
      obtain ⟨h1, h2, h3⟩ := ih (m := runEff f m (.write a)) hw' hr hP
      exact ⟨h1, h2.trans (if_neg (Ne.symm hne)), h3⟩
    | bind a =>
      have hattr : ∀ b, m.attr b ≠ r → (runEff f m (.bind a)).attr b ≠ r := by
        intro b hb
        show (if b = a then m.next else m.attr b) ≠ r
        split
        · exact hr.ne'
        · exact hb
      obtain ⟨h1, h2, h3⟩ := ih (m := runEff f m (.bind a)) hw' (hr.trans (Nat.lt_succ_self _))
        (fun b hb => hattr b (hP b hb))
      exact ⟨h1, h2.trans (if_neg hr.ne), fun b hb => h3 b (hattr b hb)⟩

theorem runEffs_attr {f : Mem V → Eff → V} {a : Attr} {es : List Eff} :
    ∀ {m : Mem V}, NeverBinds a es → (runEffs f es m).attr a = m.attr a := by
  induction es with
  | nil => intro m _; rfl
  | cons e es ih =>
    intro m h
    have h' : NeverBinds a es := fun hm => h (List.mem_cons_of_mem _ hm)
    refine (ih (m := runEff f m e) h').trans ?_
    cases e with
    | write b => rfl
    | bind b =>
      have : a ≠ b := fun hab => h (hab ▸ List.mem_cons_self)
      exact if_neg this

theorem setupEff_writes : WritesOnly overwritten setupEff := by
  intro a ha
  simp only [setupEff, linkGeometryEff, upstreamGeometryEff, downstreamGeometryEff, storageAreaEff,
    storageVolumeEff, List.mem_append, List.mem_cons, List.not_mem_nil, or_false,
    Eff.write.injEq] at ha
  unfold overwritten
  tauto

theorem solveEff_writes (c : Conf) :
    WritesOnly (fun a => overwritten a ∨ (marching c ∧ a = .Q_ik)) (solveEff c) := by
  intro a ha
  simp only [solveEff, headEff, endFlowEff, controlEff, List.mem_append] at ha
  have h1 : Eff.write a ∈ internalsEff c.method := by
    rcases ha with (((h | h) | h) | h) | h
    · simp at h
    · simp at h
    · rcases h with (h | h) | h <;> split at h <;> simp at h
    · exact h
    · simp at h
  unfold overwritten marching
  cases hm : c.method <;> rw [hm] at h1 <;> simp [internalsEff] at h1 <;> tauto

theorem loadEff_writes : WritesOnly overwritten loadEff := by
  intro a ha
  simp only [loadEff, linkGeometryEff, upstreamGeometryEff, downstreamGeometryEff, storageAreaEff,
    List.mem_append, List.mem_cons, List.not_mem_nil, or_false, Eff.write.injEq] at ha
  unfold overwritten
  tauto

/-- All effects of a step. -/
theorem stepEff_writes (c : Conf) (extra : ℕ) :
    WritesOnly (fun a => overwritten a ∨ (marching c ∧ a = .Q_ik))
      (setupEff ++ solveEff c ++ (List.replicate extra (passEff c)).flatten) := by
  intro a ha
  have hs : Eff.write a ∈ setupEff → overwritten a ∨ (marching c ∧ a = .Q_ik) :=
    fun h => Or.inl (setupEff_writes a h)
  simp only [List.mem_append] at ha
  rcases ha with (h | h) | h
  · exact hs h
  · exact solveEff_writes c a h
  · obtain ⟨l, hl, hal⟩ := List.mem_flatten.mp h
    rw [List.eq_of_mem_replicate hl] at hal
    simp only [passEff, List.mem_append] at hal
    rcases hal with (h | h) | h
    · simp at h
    · exact hs h
    · exact solveEff_writes c a h

theorem stepEff_binds (c : Conf) (extra : ℕ) {a : Attr}
    (ha : overwritten a ∨ (marching c ∧ a = .Q_ik)) :
    NeverBinds a (setupEff ++ solveEff c ++ (List.replicate extra (passEff c)).flatten) := by
  have h1 : Eff.bind a ∉ setupEff := by
    simp [setupEff, linkGeometryEff, upstreamGeometryEff, downstreamGeometryEff, storageAreaEff,
      storageVolumeEff]
  have h2 : Eff.bind a ∉ solveEff c := by
    intro h
    simp only [solveEff, headEff, endFlowEff, controlEff, List.mem_append] at h
    unfold overwritten marching at ha
    rcases h with (((h | h) | h) | h) | h
    · simp only [List.mem_singleton, Eff.bind.injEq] at h; subst h; simp at ha
    · simp only [List.mem_cons, List.not_mem_nil, or_false, Eff.bind.injEq] at h
      rcases h with rfl | rfl <;> simp at ha
    · rcases h with (h | h) | h <;> split at h <;> simp at h <;> subst h <;> simp at ha
    · cases hm : c.method <;> rw [hm] at h ha <;> simp [internalsEff] at h <;> subst h <;>
        simp at ha
    · simp only [List.mem_singleton, Eff.bind.injEq] at h; subst h; simp at ha
  intro h
  simp only [List.mem_append] at h
  rcases h with (h | h) | h
  · exact h1 h
  · exact h2 h
  · obtain ⟨l, hl, hal⟩ := List.mem_flatten.mp h
    rw [List.eq_of_mem_replicate hl] at hal
    simp only [passEff, List.mem_append] at hal
    rcases hal with (h | h) | h
    · unfold overwritten marching at ha
      simp only [List.mem_singleton, Eff.bind.injEq] at h; subst h; simp at ha
    · exact h1 h
    · exact h2 h

theorem loadDict_kept {r : ℕ} (ex : List Attr) {d : List (Attr × ℕ)} : ∀ {m : Mem V},
    r < m.next → r < (loadDict ex d m).next ∧ (loadDict ex d m).heap r = m.heap r ∧
      ∀ a, m.attr a ≠ r → (loadDict ex d m).attr a ≠ r := by
  induction d with
  | nil => intro m h; exact ⟨h, rfl, fun _ h => h⟩
  | cons e d ih =>
    intro m h
    show r < (loadDict ex d (loadKey ex m e)).next ∧ _ ∧ _
    by_cases he : e.1 ∈ ex
    · have : loadKey ex m e = m := if_pos he
      rw [show loadDict ex (e :: d) m = loadDict ex d (loadKey ex m e) from rfl, this]
      exact ih h
    · have hk : loadKey ex m e = (m.alloc (m.heap e.2)).setAttr e.1 m.next := if_neg he
      have hnext : r < (loadKey ex m e).next := by
        rw [hk]; exact h.trans (Nat.lt_succ_self _)
      have hheap : (loadKey ex m e).heap r = m.heap r := by
        rw [hk]; exact if_neg h.ne
      have hattr : ∀ a, m.attr a ≠ r → (loadKey ex m e).attr a ≠ r := by
        intro a ha
        rw [hk]
        show (if a = e.1 then m.next else m.attr a) ≠ r
        split
        · exact h.ne'
        · exact ha
      obtain ⟨h1, h2, h3⟩ := ih (m := loadKey ex m e) hnext
      exact ⟨h1, h2.trans hheap, fun a ha => h3 a (hattr a ha)⟩

theorem runEv_kept {march : Prop} {r : ℕ} {m : Mem V} (h : Kept march r m) (e : Ev V)
    (hm : ∀ c x f, e = .step c x f → marching c → march) :
    Kept march r (runEv m e) ∧ (runEv m e).heap r = m.heap r := by
  cases e with
  | step c x f =>
    obtain ⟨h1, h2, h3, _⟩ := saveState_frame h.lt c.n_o c.n_w c.n_p
    obtain ⟨h4, h5, h6⟩ := runEffs_kept (f := f) (r := r)
      (m := saveState c.n_o c.n_w c.n_p m) (stepEff_writes c x) h1 (by
        rw [h3]
        rintro a (ha | ⟨hc, rfl⟩)
        · exact h.ne a ha
        · exact h.neQ (hm c x f rfl hc))
    rw [h3] at h6
    exact ⟨⟨h4, fun a ha => h6 a (h.ne a ha), fun hq => h6 _ (h.neQ hq)⟩, h5.trans h2⟩
  | load ex f =>
    obtain ⟨h1, h2, h3⟩ := loadDict_kept (r := r) ex (d := m.states) (m := m) h.lt
    have hl : loadState [] ex (fun _ => []) m = loadDict ex m.states m := rfl
    obtain ⟨h4, h5, h6⟩ := runEffs_kept (f := f) (r := r) (m := loadDict ex m.states m)
      loadEff_writes h1 (fun a ha => h3 a (h.ne a ha))
    refine ⟨⟨?_, ?_, ?_⟩, ?_⟩
    · show r < (runEffs f loadEff (loadState [] ex (fun _ => []) m)).next
      rw [hl]; exact h4
    · intro a ha
      show (runEffs f loadEff (loadState [] ex (fun _ => []) m)).attr a ≠ r
      rw [hl]; exact h6 a (h3 a (h.ne a ha))
    · intro hq
      show (runEffs f loadEff (loadState [] ex (fun _ => []) m)).attr _ ≠ r
      rw [hl]; exact h6 _ (h3 _ (h.neQ hq))
    · show (runEffs f loadEff (loadState [] ex (fun _ => []) m)).heap r = _
      rw [hl]; exact h5.trans h2

/-- Whether a marching method is used by some step of a run. -/
def Marches (es : List (Ev V)) : Prop := ∃ c x f, Ev.step c x f ∈ es ∧ marching c

theorem runEvs_kept {march : Prop} {r : ℕ} {es : List (Ev V)} : ∀ {m : Mem V},
    Kept march r m → (Marches es → march) →
    Kept march r (runEvs es m) ∧ (runEvs es m).heap r = m.heap r := by
  induction es with
  | nil => intro m h _; exact ⟨h, rfl⟩
  | cons e es ih =>
    intro m h hm
    obtain ⟨h1, h2⟩ := runEv_kept h e (by
      rintro c x f rfl hc; exact hm ⟨c, x, f, List.mem_cons_self, hc⟩)
    obtain ⟨h3, h4⟩ := ih (m := runEv m e) h1 (by
      rintro ⟨c, x, f, hmem, hc⟩; exact hm ⟨c, x, f, List.mem_cons_of_mem _ hmem, hc⟩)
    exact ⟨h3, h4.trans h2⟩

/-! ### Properties -/

/-- **C129, snapshots.**  A value of `H_j`, `Q_uk`, `Q_dk`, `Q_o`, `Q_w`, `Q_p`, the time or any
other attribute a step does not write into, read before a run of steps (of any models' options, with
any number of iterations) and reloads, still shows after the run what it showed when it was read.
With the least-squares methods this includes `Q_ik`.  The attribute must not share its array with
one of those a step overwrites. -/
theorem C129_snapshot_partial (m : Mem V) (es : List (Ev V)) (a : Attr) (hex : m.attr a < m.next)
    (hdisj : ∀ b, overwritten b → m.attr b ≠ m.attr a)
    (hQ : Marches es → m.attr .Q_ik ≠ m.attr a) :
    (runEvs es m).heap (m.attr a) = m.get a :=
  (runEvs_kept (march := Marches es) ⟨hex, hdisj, hQ⟩ id).2

/-- **C129, an assigned array stays the user's** under the same conditions: after
`model.a = x` for an attribute that steps bind anew, no run changes `x`. -/
theorem C129_assigned_kept_partial (m : Mem V) (es : List (Ev V)) (a : Attr) (i x : ℕ)
    (hx : m.ref i = some x) (hlt : x < m.next) (ha : ¬ overwritten a)
    (hdisj : ∀ b, overwritten b → m.attr b ≠ x)
    (hQ : Marches es → a ≠ .Q_ik ∧ m.attr .Q_ik ≠ x) :
    (runEvs es (runOp m (.userSet a i))).heap x = m.heap x := by
  have hrun : runOp m (.userSet a i) = m.setAttr a x := by
    show (match m.ref i with | some l => m.setAttr a l | none => m) = _
    rw [hx]
  rw [hrun]
  refine (runEvs_kept (march := Marches es) (m := m.setAttr a x) ⟨hlt, ?_, ?_⟩ id).2
  · intro b hb
    have : b ≠ a := fun h => ha (h ▸ hb)
    show (if b = a then x else m.attr b) ≠ x
    rw [if_neg this]; exact hdisj b hb
  · intro h
    show (if Attr.Q_ik = a then x else m.attr .Q_ik) ≠ x
    rw [if_neg (hQ h).1.symm]; exact (hQ h).2

/-- **C129, arrays passed to a step stay the user's**: any array that no overwritten attribute
refers to (inflows, boundary heads, gate positions, tables) has the same contents after any run, and
still no overwritten attribute refers to it. -/
theorem C129_inputs_kept (m : Mem V) (es : List (Ev V)) (x : ℕ) (hlt : x < m.next)
    (hdisj : ∀ b, overwritten b ∨ b = .Q_ik → m.attr b ≠ x) :
    (runEvs es m).heap x = m.heap x ∧ ∀ b, overwritten b ∨ b = .Q_ik → (runEvs es m).attr b ≠ x := by
  obtain ⟨h1, h2⟩ := runEvs_kept (march := True) (es := es)
    ⟨hlt, fun a ha => hdisj a (Or.inl ha), fun _ => hdisj _ (Or.inr rfl)⟩ (fun _ => trivial)
  refine ⟨h2, ?_⟩
  rintro b (hb | rfl)
  · exact h1.ne b hb
  · exact h1.neQ trivial

/-- **C129, live arrays.**  The depths, flow areas, perimeters, radii, widths, storage areas and
volumes (and the flows with a marching method) read before a step are the arrays the step works on:
after any number of steps they show the *new* values. -/
theorem C129_live (m : Mem V) (steps : List (Conf × ℕ × (Mem V → Eff → V))) (a : Attr)
    (ha : overwritten a ∨ (a = .Q_ik ∧ ∀ s ∈ steps, marching s.1)) :
    (runEvs (steps.map fun s => .step s.1 s.2.1 s.2.2) m).heap (m.attr a)
      = (runEvs (steps.map fun s => .step s.1 s.2.1 s.2.2) m).get a := by
  have key : ∀ (m : Mem V),
      (runEvs (steps.map fun s => .step s.1 s.2.1 s.2.2) m).attr a = m.attr a := by
    induction steps with
    | nil => intro m; rfl
    | cons s steps ih =>
      intro m
      have ha' : overwritten a ∨ (a = .Q_ik ∧ ∀ s ∈ steps, marching s.1) := by
        rcases ha with h | ⟨h, h'⟩
        · exact Or.inl h
        · exact Or.inr ⟨h, fun t ht => h' t (List.mem_cons_of_mem _ ht)⟩
      refine (ih ha' (runEv m (.step s.1 s.2.1 s.2.2))).trans ?_
      have hb := stepEff_binds s.1 s.2.1 (a := a) (by
        rcases ha with h | ⟨h, h'⟩
        · exact Or.inl h
        · exact Or.inr ⟨h' s List.mem_cons_self, h⟩)
      refine (runEffs_attr (f := s.2.2) (m := saveState s.1.n_o s.1.n_w s.1.n_p m) hb).trans ?_
      rw [saveState_attr]
  unfold Mem.get
  rw [key m]

/-- The array a user gets by reading an attribute: the last of their arrays. -/
theorem userGet_ref (m : Mem V) (a : Attr) :
    (runOp m (.userGet a)).ref m.ext.length = some (m.attr a) := by
  show (m.ext ++ [m.attr a])[m.ext.length]? = _
  simp

/-- **C129, changes cannot be seen by comparing.**  `before = model.h_Ik; model.step(...)`: whatever
the step did, `before` and `model.h_Ik` show the same. -/
theorem C129_no_change_seen (m : Mem V) (c : Conf) (extra : ℕ) (f : Mem V → Eff → V) (a : Attr)
    (ha : overwritten a ∨ (a = .Q_ik ∧ marching c)) :
    ∃ r, (runOp m (.userGet a)).ref m.ext.length = some r ∧
      (runEv (runOp m (.userGet a)) (.step c extra f)).heap r
        = (runEv (runOp m (.userGet a)) (.step c extra f)).get a := by
  refine ⟨m.attr a, userGet_ref m a, ?_⟩
  have h := C129_live (runOp m (.userGet a)) [(c, extra, f)] a (by
    rcases ha with h | ⟨h, h'⟩
    · exact Or.inl h
    · exact Or.inr ⟨h, fun s hs => by rw [List.mem_singleton.mp hs]; exact h'⟩)
  have ha' : (runOp m (.userGet a)).attr a = m.attr a := rfl
  rw [ha'] at h
  generalize runOp m (.userGet a) = m' at h ⊢
  simp only [List.map_cons, List.map_nil, runEvs, List.foldl_cons, List.foldl_nil] at h
  exact h

/-- **C129, an assigned array is overwritten**: after `model.h_Ik = x` (or an area, a storage area
or volume; or the flows with a marching method), `x` shows after every number of steps what the
model holds, not what the user put there. -/
theorem C129_assigned_overwritten (m : Mem V) (steps : List (Conf × ℕ × (Mem V → Eff → V)))
    (a : Attr) (i x : ℕ) (hx : m.ref i = some x)
    (ha : overwritten a ∨ (a = .Q_ik ∧ ∀ s ∈ steps, marching s.1)) :
    (runEvs (steps.map fun s => .step s.1 s.2.1 s.2.2) (runOp m (.userSet a i))).heap x
      = (runEvs (steps.map fun s => .step s.1 s.2.1 s.2.2) (runOp m (.userSet a i))).get a := by
  have hrun : runOp m (.userSet a i) = m.setAttr a x := by
    show (match m.ref i with | some l => m.setAttr a l | none => m) = _
    rw [hx]
  have hat : (runOp m (.userSet a i)).attr a = x := by
    rw [hrun]; exact if_pos rfl
  have h := C129_live (runOp m (.userSet a i)) steps a ha
  rwa [hat] at h

theorem loadDict_rebinds (ex : List Attr) {a : Attr} {r : ℕ} (hex : a ∉ ex) {d : List (Attr × ℕ)} :
    ∀ {m : Mem V}, r < m.next → a ∈ d.map Prod.fst → (loadDict ex d m).attr a ≠ r := by
  induction d with
  | nil => intro m _ h; simp at h
  | cons e d ih =>
    intro m hr h
    show (loadDict ex d (loadKey ex m e)).attr a ≠ r
    have hnext : r < (loadKey ex m e).next := by
      unfold loadKey
      split
      · exact hr
      · exact hr.trans (Nat.lt_succ_self _)
    by_cases hd : a ∈ d.map Prod.fst
    · exact ih hnext hd
    · have hae : e.1 = a := by
        simp only [List.map_cons, List.mem_cons] at h
        rcases h with h | h
        · exact h.symm
        · exact absurd h hd
      refine (loadDict_kept ex (d := d) hnext).2.2 a ?_
      rw [show loadKey ex m e = (m.alloc (m.heap e.2)).setAttr e.1 m.next from
        if_neg (by rw [hae]; exact hex)]
      show (if a = e.1 then m.next else m.attr a) ≠ r
      rw [if_pos hae.symm]
      exact hr.ne'

/-- **C129, a reload cuts the connection.**  After `load_state` (as after a rejected step of a
simulation) an array read earlier from a saved attribute shows for ever what it showed then, while
the model goes on with another array. -/
theorem C129_detached (m : Mem V) (ex : List Attr) (f : Mem V → Eff → V) (es : List (Ev V))
    (a : Attr) (hlt : m.attr a < m.next) (hun : ∀ b, b ≠ a → m.attr b ≠ m.attr a)
    (hsaved : a ∈ m.states.map Prod.fst) (hex : a ∉ ex) :
    (runEvs (.load ex f :: es) m).heap (m.attr a) = m.get a ∧
      (runEv m (.load ex f)).attr a ≠ m.attr a := by
  obtain ⟨h1, h2, h3⟩ := loadDict_kept (r := m.attr a) ex (d := m.states) (m := m) hlt
  have hall : ∀ b, (loadDict ex m.states m).attr b ≠ m.attr a := by
    intro b
    by_cases hb : b = a
    · rw [hb]; exact loadDict_rebinds ex hex hlt hsaved
    · exact h3 b (hun b hb)
  obtain ⟨h4, h5, h6⟩ := runEffs_kept (f := f) (r := m.attr a) (m := loadDict ex m.states m)
    loadEff_writes h1 (fun b _ => hall b)
  have hk : Kept True (m.attr a) (runEv m (.load ex f)) :=
    ⟨h4, fun b _ => h6 b (hall b), fun _ => h6 _ (hall _)⟩
  exact ⟨(runEvs_kept (es := es) hk (fun _ => trivial)).2.trans (h5.trans h2), h6 a (hall a)⟩

/-- Non-vacuous: a store in which every attribute has an array of its own. -/
def viewMem : Mem ℤ where
  heap := fun i => (i : ℤ)
  next := 100
  attr := fun a => match a with
    | .t => 0 | .H_j => 1 | .h_Ik => 2 | .Q_ik => 3 | .Q_uk => 4 | .Q_dk => 5 | .x_Ik => 6
    | .Q_o => 7 | .Q_w => 8 | .Q_p => 9 | .A_ik => 10 | .A_uk => 11 | .A_dk => 12 | .A_sj => 13
    | .V_j => 14 | .other n => 15 + n % 8
  states := []
  ext := [50]

/-- A step that stores 7 everywhere. -/
def viewStep : Ev ℤ := .step ⟨1, 0, 0, .b⟩ 1 (fun _ _ => 7)

/-- Read before the step: the heads stay 1 while the model has 7, the depths become 7. -/
example :
    (runEv viewMem viewStep).heap (viewMem.attr .H_j) = 1 ∧ (runEv viewMem viewStep).get .H_j = 7 ∧
    (runEv viewMem viewStep).heap (viewMem.attr .h_Ik) = 7 := by
  refine ⟨?_, rfl, rfl⟩
  refine C129_snapshot_partial viewMem [viewStep] .H_j (by decide) ?_ (fun _ => by decide)
  rintro b (rfl | rfl | rfl | rfl | rfl | rfl | rfl | rfl | rfl) <;> decide

/-- An array of 50 assigned to `H_j` survives the step, assigned to `h_Ik` it does not. -/
example :
    (runEvs [viewStep] (runOp viewMem (.userSet .H_j 0))).heap 50 = 50 ∧
    (runEvs [viewStep] (runOp viewMem (.userSet .h_Ik 0))).heap 50 = 7 := by
  refine ⟨?_, rfl⟩
  refine C129_assigned_kept_partial viewMem [viewStep] .H_j 0 50 rfl (by decide) ?_ ?_ ?_
  · unfold overwritten; decide
  · rintro b (rfl | rfl | rfl | rfl | rfl | rfl | rfl | rfl | rfl) <;> decide
  · intro _; exact ⟨by decide, by decide⟩

/-- A reload before a step: the depths read before it stay what they were. -/
example :
    (runEvs [.load [] (fun _ _ => 3), viewStep] { viewMem with states := [(.h_Ik, 60)] }).heap 2
      = 2 := by
  refine (C129_detached { viewMem with states := [(.h_Ik, 60)] } [] (fun _ _ => 3) [viewStep] .h_Ik
    (by decide) ?_ (by decide) (by decide)).1
  intro b hb
  cases b <;> first | exact absurd rfl hb | decide | (show 15 + _ ≠ 2; omega)

/-! ### Element types -/

section Types

variable {K : Type*} [Field K] [LinearOrder K] [FloorRing K]

/-- All elements are integers and the array is one of integers. -/
def IntArr (a : Arr K) : Prop := a.isInt = true ∧ ∀ i, ∃ n : ℤ, a.data i = (n : K)

theorem store_int {a : Arr K} (h : IntArr a) (v : ℕ → K) : IntArr (a.store v) := by
  unfold Arr.store
  rw [if_pos h.1]
  refine ⟨rfl, fun i => ?_⟩
  show ∃ n : ℤ, truncate (v i) = (n : K)
  unfold truncate
  split
  · exact ⟨_, rfl⟩
  · exact ⟨_, rfl⟩

theorem runEffs_int {g : Mem (Arr K) → Eff → ℕ → K} {r : ℕ} {es : List Eff} :
    ∀ {m : Mem (Arr K)}, r < m.next → IntArr (m.heap r) →
    r < (runEffs (typed g) es m).next ∧ IntArr ((runEffs (typed g) es m).heap r) := by
  induction es with
  | nil => intro m h h'; exact ⟨h, h'⟩
  | cons e es ih =>
    intro m hr hi
    cases e with
    | write a =>
      refine ih (m := runEff (typed g) m (.write a)) hr ?_
      show IntArr (if r = m.attr a then (m.heap (m.attr a)).store _ else m.heap r)
      split
      · next h => rw [← h]; exact store_int hi _
      · exact hi
    | bind a =>
      refine ih (m := runEff (typed g) m (.bind a)) (hr.trans (Nat.lt_succ_self _)) ?_
      show IntArr (if r = m.next then _ else m.heap r)
      rw [if_neg hr.ne]; exact hi

/-- **C130, an integer array stays one.**  If the array assigned to `h_Ik` (or to an area, a storage
area or volume; or to `Q_ik` with a marching method) has integer elements, then in the base class
every value the model ever holds there is a whole number, whatever the steps compute. -/
theorem C130_stays_integer (m : Mem (Arr K)) (steps : List (Conf × ℕ × (Mem (Arr K) → Eff → ℕ → K)))
    (a : Attr) (i x : ℕ) (hx : m.ref i = some x) (hlt : x < m.next) (hint : IntArr (m.heap x))
    (ha : overwritten a ∨ (a = .Q_ik ∧ ∀ s ∈ steps, marching s.1)) :
    IntArr ((runEvs (steps.map fun s => .step s.1 s.2.1 (typed s.2.2))
      (runOp m (.userSet a i))).get a) := by
  have hrun : runOp m (.userSet a i) = m.setAttr a x := by
    show (match m.ref i with | some l => m.setAttr a l | none => m) = _
    rw [hx]
  have h := C129_assigned_overwritten m (steps.map fun s => (s.1, s.2.1, typed s.2.2)) a i x hx (by
    rcases ha with h | ⟨h, h'⟩
    · exact Or.inl h
    · refine Or.inr ⟨h, fun s hs => ?_⟩
      obtain ⟨t, ht, rfl⟩ := List.mem_map.mp hs
      exact h' t ht)
  rw [List.map_map] at h
  refine (show _ = _ from h) ▸ ?_
  have key : ∀ (m : Mem (Arr K)), x < m.next → IntArr (m.heap x) →
      IntArr ((runEvs (steps.map ((fun s => Ev.step s.1 s.2.1 s.2.2) ∘
        fun s => (s.1, s.2.1, typed s.2.2))) m).heap x) := by
    clear h ha
    induction steps with
    | nil => intro m _ h; exact h
    | cons s steps ih =>
      intro m hlt hi
      obtain ⟨h1, h2, _, _⟩ := saveState_frame hlt s.1.n_o s.1.n_w s.1.n_p
      obtain ⟨h3, h4⟩ := runEffs_int (g := s.2.2)
        (es := setupEff ++ solveEff s.1 ++ (List.replicate s.2.1 (passEff s.1)).flatten) h1
        (h2 ▸ hi)
      exact ih (runEv m (.step s.1 s.2.1 (typed s.2.2))) h3 h4
  exact key _ (by rw [hrun]; exact hlt) (by rw [hrun]; exact hint)

/-- **C130, float arrays are not affected**: a float array takes every value as it is. -/
theorem C130_float_partial (a : Arr K) (h : a.isInt = false) (v : ℕ → K) (i : ℕ) :
    (a.store v).data i = v i := by
  unfold Arr.store
  rw [h]
  rfl

/-- **C130, attributes that are bound anew** are float arrays again after a step, whatever was
assigned to them. -/
theorem C130_rebound_partial (m : Mem (Arr K)) (g : Mem (Arr K) → Eff → ℕ → K) (a : Attr) :
    ((runEff (typed g) m (.bind a)).get a).isInt = false := by
  show ((if (if a = a then m.next else m.attr a) = m.next then typed g m (.bind a)
    else m.heap (if a = a then m.next else m.attr a)) : Arr K).isInt = false
  rw [if_pos rfl, if_pos rfl]
  rfl

end Types

/-- A depth of 1/2 computed by the base class and stored in an integer array is lost. -/
example : ((⟨true, fun _ => 3⟩ : Arr ℚ).store (fun _ => 1 / 2)).data 0 = 0 := by
  norm_num [Arr.store, truncate]

end Pipedream.Heap
