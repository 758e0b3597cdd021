import Verif.HeapModel
import Mathlib.Tactic.Common
import Mathlib.Order.Basic
import Mathlib.Order.Nat
import Mathlib.Data.List.Nodup
import Mathlib.Algebra.Order.Ring.Int

/-!
# C45: saving and loading a state round-trips

The invariant `Sep` says that no object stored in `states` is reachable from an attribute of the
model or from a variable of the user.  It holds for every history, so nothing that happens after
`save_state` can change what was saved, and `load_state` brings it back.
-/

namespace Pipedream.Heap

variable {V : Type*}

/-- Saved objects are separate from everything the model and the user can write to. -/
structure Sep (m : Mem V) : Prop where
  attr_lt : ∀ a, m.attr a < m.next
  ext_lt : ∀ l ∈ m.ext, l < m.next
  saved_lt : ∀ e ∈ m.states, e.2 < m.next
  attr_ne : ∀ e ∈ m.states, ∀ a, m.attr a ≠ e.2
  ext_ne : ∀ e ∈ m.states, ∀ l ∈ m.ext, l ≠ e.2
  nodup : (m.states.map Prod.fst).Nodup

/-- `m'` has the same saved objects with the same contents. -/
def SameSaved (m m' : Mem V) : Prop :=
  m'.states = m.states ∧ ∀ e ∈ m.states, m'.heap e.2 = m.heap e.2

theorem SameSaved.refl (m : Mem V) : SameSaved m m := ⟨rfl, fun _ _ => rfl⟩

theorem SameSaved.trans {a b c : Mem V} (h : SameSaved a b) (h' : SameSaved b c) :
    SameSaved a c :=
  ⟨h'.1.trans h.1, fun e he => (h'.2 e (h.1 ▸ he)).trans (h.2 e he)⟩

theorem SameSaved.saved {m m' : Mem V} (h : SameSaved m m') (a : Attr) :
    m'.saved a = m.saved a := by
  unfold Mem.saved
  rw [h.1]
  cases hf : m.states.find? (fun e => e.1 = a) with
  | none => rfl
  | some e => simp only [Option.map_some]; rw [h.2 e (List.mem_of_find?_eq_some hf)]

/-! ### Single operations -/

theorem poke_sep {m : Mem V} (h : Sep m) (l : ℕ) (v : V) : Sep (m.poke l v) :=
  ⟨h.attr_lt, h.ext_lt, h.saved_lt, h.attr_ne, h.ext_ne, h.nodup⟩

theorem poke_same {m : Mem V} {l : ℕ} (v : V) (hl : ∀ e ∈ m.states, l ≠ e.2) :
    SameSaved m (m.poke l v) :=
  ⟨rfl, fun e he => if_neg (fun h => hl e he h.symm)⟩

theorem alloc_sep {m : Mem V} (h : Sep m) (v : V) : Sep (m.alloc v) :=
  ⟨fun a => (h.attr_lt a).trans (Nat.lt_succ_self _),
   fun l hl => (h.ext_lt l hl).trans (Nat.lt_succ_self _),
   fun e he => (h.saved_lt e he).trans (Nat.lt_succ_self _), h.attr_ne, h.ext_ne, h.nodup⟩

theorem alloc_same {m : Mem V} (h : Sep m) (v : V) : SameSaved m (m.alloc v) :=
  ⟨rfl, fun e he => if_neg (h.saved_lt e he).ne⟩

theorem setAttr_sep {m : Mem V} (h : Sep m) (a : Attr) {l : ℕ} (hlt : l < m.next)
    (hne : ∀ e ∈ m.states, l ≠ e.2) : Sep (m.setAttr a l) := by
  refine ⟨fun b => ?_, h.ext_lt, h.saved_lt, fun e he b => ?_, h.ext_ne, h.nodup⟩
  · show (if b = a then l else m.attr b) < m.next
    split
    · exact hlt
    · exact h.attr_lt b
  · show (if b = a then l else m.attr b) ≠ e.2
    split
    · exact hne e he
    · exact h.attr_ne e he b

theorem setAttr_same (m : Mem V) (a : Attr) (l : ℕ) : SameSaved m (m.setAttr a l) :=
  ⟨rfl, fun _ _ => rfl⟩

theorem fresh_attr_sep {m : Mem V} (h : Sep m) (a : Attr) (v : V) :
    Sep ((m.alloc v).setAttr a m.next) :=
  setAttr_sep (alloc_sep h v) a (Nat.lt_succ_self _) (fun e he => (h.saved_lt e he).ne')

theorem fresh_attr_same {m : Mem V} (h : Sep m) (a : Attr) (v : V) :
    SameSaved m ((m.alloc v).setAttr a m.next) :=
  (alloc_same h v).trans (setAttr_same _ _ _)

theorem loadKey_sep {m : Mem V} (h : Sep m) (ex : List Attr) (e : Attr × ℕ) :
    Sep (loadKey ex m e) ∧ SameSaved m (loadKey ex m e) := by
  unfold loadKey
  split
  · exact ⟨h, SameSaved.refl _⟩
  · exact ⟨fresh_attr_sep h _ _, fresh_attr_same h _ _⟩

theorem loadDict_sep {m : Mem V} (h : Sep m) (ex : List Attr) (d : List (Attr × ℕ)) :
    Sep (loadDict ex d m) ∧ SameSaved m (loadDict ex d m) := by
  induction d generalizing m with
  | nil => exact ⟨h, SameSaved.refl _⟩
  | cons e d ih =>
    obtain ⟨h1, h2⟩ := loadKey_sep h ex e
    obtain ⟨h3, h4⟩ := ih h1
    exact ⟨h3, h2.trans h4⟩

theorem pokeAttrs_sep {m : Mem V} (h : Sep m) (ws : List (Attr × V)) :
    Sep (pokeAttrs ws m) ∧ SameSaved m (pokeAttrs ws m) := by
  induction ws generalizing m with
  | nil => exact ⟨h, SameSaved.refl _⟩
  | cons w ws ih =>
    have h1 : Sep (m.poke (m.attr w.1) w.2) := poke_sep h _ _
    have h2 : SameSaved m (m.poke (m.attr w.1) w.2) :=
      poke_same _ (fun e he => h.attr_ne e he _)
    obtain ⟨h3, h4⟩ := ih h1
    exact ⟨h3, h2.trans h4⟩

theorem loadState_sep {m : Mem V} (h : Sep m) (d : List (Attr × ℕ)) (ex : List Attr)
    (r : Mem V → List (Attr × V)) :
    Sep (loadState d ex r m) ∧ SameSaved m (loadState d ex r m) := by
  obtain ⟨h1, h2⟩ := loadDict_sep h ex (if d = [] then m.states else d)
  obtain ⟨h3, h4⟩ := pokeAttrs_sep h1 (r (loadDict ex (if d = [] then m.states else d) m))
  exact ⟨h3, h2.trans h4⟩

theorem ref_mem {m : Mem V} {i l : ℕ} (h : m.ref i = some l) : l ∈ m.ext :=
  List.mem_of_getElem? h

theorem runOp_sep {m : Mem V} (h : Sep m) (o : Op V) :
    Sep (runOp m o) ∧ SameSaved m (runOp m o) := by
  cases o with
  | write a v => exact ⟨poke_sep h _ _, poke_same _ (fun e he => h.attr_ne e he _)⟩
  | rebind a v => exact ⟨fresh_attr_sep h _ _, fresh_attr_same h _ _⟩
  | «alias» a b =>
    exact ⟨setAttr_sep h a (h.attr_lt b) (fun e he => h.attr_ne e he b), setAttr_same _ _ _⟩
  | userNew v =>
    have h1 := alloc_sep h v
    refine ⟨⟨h1.attr_lt, ?_, h1.saved_lt, h1.attr_ne, ?_, h1.nodup⟩, alloc_same h v⟩
    · intro l hl
      rcases List.mem_append.1 hl with hl | hl
      · exact h1.ext_lt l hl
      · rw [List.mem_singleton.1 hl]; exact Nat.lt_succ_self _
    · intro e he l hl
      rcases List.mem_append.1 hl with hl | hl
      · exact h1.ext_ne e he l hl
      · rw [List.mem_singleton.1 hl]; exact (h.saved_lt e he).ne'
  | userGet a =>
    refine ⟨⟨h.attr_lt, ?_, h.saved_lt, h.attr_ne, ?_, h.nodup⟩, ⟨rfl, fun _ _ => rfl⟩⟩
    · intro l hl
      rcases List.mem_append.1 hl with hl | hl
      · exact h.ext_lt l hl
      · rw [List.mem_singleton.1 hl]; exact h.attr_lt a
    · intro e he l hl
      rcases List.mem_append.1 hl with hl | hl
      · exact h.ext_ne e he l hl
      · rw [List.mem_singleton.1 hl]; exact h.attr_ne e he a
  | userSet a i =>
    simp only [runOp]
    cases hr : m.ref i with
    | none => exact ⟨h, SameSaved.refl _⟩
    | some l =>
      exact ⟨setAttr_sep h a (h.ext_lt l (ref_mem hr)) (fun e he => h.ext_ne e he l (ref_mem hr)),
        setAttr_same _ _ _⟩
  | userWrite i v =>
    simp only [runOp]
    cases hr : m.ref i with
    | none => exact ⟨h, SameSaved.refl _⟩
    | some l =>
      exact ⟨poke_sep h _ _, poke_same _ (fun e he => h.ext_ne e he l (ref_mem hr))⟩
  | loadSelf ex ws => exact loadState_sep h [] ex (fun _ => ws)
  | loadUser d ex ws =>
    exact loadState_sep h (d.filterMap fun e => (m.ref e.2).map fun l => (e.1, l)) ex (fun _ => ws)

theorem runOps_sep {m : Mem V} (h : Sep m) (ops : List (Op V)) :
    Sep (runOps ops m) ∧ SameSaved m (runOps ops m) := by
  induction ops generalizing m with
  | nil => exact ⟨h, SameSaved.refl _⟩
  | cons o ops ih =>
    obtain ⟨h1, h2⟩ := runOp_sep h o
    obtain ⟨h3, h4⟩ := ih h1
    exact ⟨h3, h2.trans h4⟩

/-! ### Saving -/

theorem dictSet_mem {d : List (Attr × ℕ)} {k : Attr} {l : ℕ} {e : Attr × ℕ}
    (h : e ∈ dictSet d k l) : e = (k, l) ∨ (e ∈ d ∧ e.1 ≠ k) := by
  unfold dictSet at h
  split at h
  · obtain ⟨e', he', rfl⟩ := List.mem_map.1 h
    by_cases hk : e'.1 = k
    · left; rw [if_pos hk]
    · right; rw [if_neg hk]; exact ⟨he', hk⟩
  · rename_i hany
    rcases List.mem_append.1 h with h | h
    · refine Or.inr ⟨h, fun hk => hany ?_⟩
      exact List.any_eq_true.2 ⟨e, h, by simpa using hk⟩
    · exact Or.inl (List.mem_singleton.1 h)

theorem mem_dictSet {d : List (Attr × ℕ)} {k : Attr} {l : ℕ} : (k, l) ∈ dictSet d k l := by
  unfold dictSet
  split
  · rename_i hany
    obtain ⟨e, he, hk⟩ := List.any_eq_true.1 hany
    exact List.mem_map.2 ⟨e, he, if_pos (by simpa using hk)⟩
  · exact List.mem_append.2 (Or.inr (List.mem_singleton.2 rfl))

theorem mem_dictSet_of_ne {d : List (Attr × ℕ)} {k : Attr} {l : ℕ} {e : Attr × ℕ} (he : e ∈ d)
    (hk : e.1 ≠ k) : e ∈ dictSet d k l := by
  unfold dictSet
  split
  · exact List.mem_map.2 ⟨e, he, if_neg hk⟩
  · exact List.mem_append.2 (Or.inl he)

theorem dictSet_keys_nodup {d : List (Attr × ℕ)} (hd : (d.map Prod.fst).Nodup) (k : Attr) (l : ℕ) :
    ((dictSet d k l).map Prod.fst).Nodup := by
  unfold dictSet
  split
  · have : (d.map (fun e => if e.1 = k then (k, l) else e)).map Prod.fst = d.map Prod.fst := by
      rw [List.map_map]
      refine List.map_congr_left fun e _ => ?_
      by_cases hk : e.1 = k
      · simp [Function.comp, hk]
      · simp [Function.comp, hk]
    rw [this]; exact hd
  · rename_i hany
    rw [List.map_append, List.map_singleton]
    refine List.nodup_append.2 ⟨hd, List.nodup_singleton _, ?_⟩
    intro a ha b hb
    rw [List.mem_singleton.1 hb]
    rintro rfl
    obtain ⟨e, he, hek⟩ := List.mem_map.1 ha
    exact hany (List.any_eq_true.2 ⟨e, he, by simpa using hek⟩)

theorem saveKey_sep {m : Mem V} (h : Sep m) (k : Attr) : Sep (saveKey m k) := by
  refine ⟨fun a => (h.attr_lt a).trans (Nat.lt_succ_self _),
    fun l hl => (h.ext_lt l hl).trans (Nat.lt_succ_self _), ?_, ?_, ?_,
    dictSet_keys_nodup h.nodup _ _⟩
  · intro e he
    rcases dictSet_mem he with rfl | ⟨he, _⟩
    · exact Nat.lt_succ_self _
    · exact (h.saved_lt e he).trans (Nat.lt_succ_self _)
  · intro e he a
    rcases dictSet_mem he with rfl | ⟨he, _⟩
    · exact (h.attr_lt a).ne
    · exact h.attr_ne e he a
  · intro e he l hl
    rcases dictSet_mem he with rfl | ⟨he, _⟩
    · exact (h.ext_lt l hl).ne
    · exact h.ext_ne e he l hl

theorem saveKey_get {m : Mem V} (h : Sep m) (k a : Attr) : (saveKey m k).get a = m.get a :=
  if_neg (h.attr_lt a).ne

/-- What one save leaves in the dictionary. -/
def SavedIs (m : Mem V) (a : Attr) (v : V) : Prop := ∃ l, (a, l) ∈ m.states ∧ m.heap l = v

theorem saveKey_saved {m : Mem V} (k : Attr) : SavedIs (saveKey m k) k (m.get k) :=
  ⟨m.next, mem_dictSet, if_pos rfl⟩

theorem saveKey_saved_ne {m : Mem V} (h : Sep m) {k a : Attr} (hne : a ≠ k) {v : V}
    (hs : SavedIs m a v) : SavedIs (saveKey m k) a v := by
  obtain ⟨l, hl, hv⟩ := hs
  exact ⟨l, mem_dictSet_of_ne hl hne, (if_neg (h.saved_lt _ hl).ne).trans hv⟩

theorem foldl_saveKey {ks : List Attr} : ∀ {m : Mem V}, Sep m →
    Sep (ks.foldl saveKey m) ∧ (∀ a, (ks.foldl saveKey m).get a = m.get a) ∧
    (∀ a v, SavedIs m a v → v = m.get a → SavedIs (ks.foldl saveKey m) a v) ∧
    ∀ a ∈ ks, SavedIs (ks.foldl saveKey m) a (m.get a) := by
  induction ks with
  | nil => exact fun h => ⟨h, fun _ => rfl, fun _ _ hs _ => hs, fun a ha => absurd ha (by simp)⟩
  | cons k ks ih =>
    intro m h
    obtain ⟨h1, h2, h3, h4⟩ := ih (saveKey_sep h k)
    refine ⟨h1, fun a => (h2 a).trans (saveKey_get h k a), ?_, ?_⟩
    · intro a v hs hv
      refine h3 a v ?_ (hv.trans (saveKey_get h k a).symm)
      by_cases hak : a = k
      · subst hak hv; exact saveKey_saved a
      · exact saveKey_saved_ne h hak hs
    · intro a ha
      rcases List.mem_cons.1 ha with rfl | ha
      · exact h3 a _ (saveKey_saved a) (saveKey_get h a a).symm
      · have := h4 a ha
        rwa [saveKey_get h] at this

theorem saveState_sep {m : Mem V} (h : Sep m) (n_o n_w n_p : ℕ) :
    Sep (saveState n_o n_w n_p m) := (foldl_saveKey h).1

theorem runHist_sep {m : Mem V} (h : Sep m) (n_o n_w n_p : ℕ) (es : List (Event V)) :
    Sep (runHist n_o n_w n_p es m) := by
  induction es generalizing m with
  | nil => exact h
  | cons e es ih =>
    cases e with
    | op o => exact ih (runOp_sep h o).1
    | save => exact ih (saveState_sep h _ _ _)

theorem Fresh.sep {m : Mem V} (h : Fresh m) : Sep m := by
  obtain ⟨h0, h1, h2⟩ := h
  refine ⟨h1, h2, ?_, ?_, ?_, ?_⟩ <;> simp [h0]

theorem savedIs_find {m : Mem V} (h : Sep m) {a : Attr} {v : V} (hs : SavedIs m a v) :
    m.saved a = some v := by
  obtain ⟨l, hl, hv⟩ := hs
  unfold Mem.saved
  have hfind : ∀ d : List (Attr × ℕ), (d.map Prod.fst).Nodup → (a, l) ∈ d →
      d.find? (fun e => e.1 = a) = some (a, l) := by
    intro d
    induction d with
    | nil => intro _ hm; exact absurd hm (by simp)
    | cons e d ih =>
      intro hnd hm
      rw [List.map_cons, List.nodup_cons] at hnd
      rcases List.mem_cons.1 hm with rfl | hm
      · simp
      · have hne : e.1 ≠ a := fun hea => hnd.1 (List.mem_map.2 ⟨(a, l), hm, hea.symm⟩)
        rw [List.find?_cons_of_neg (by simpa using hne)]
        exact ih hnd.2 hm
  rw [hfind m.states h.nodup hl]
  simp [hv]

theorem SavedIs.same {m m' : Mem V} (h : SameSaved m m') {a : Attr} {v : V}
    (hs : SavedIs m a v) : SavedIs m' a v := by
  obtain ⟨l, hl, hv⟩ := hs
  exact ⟨l, h.1 ▸ hl, (h.2 _ hl).trans hv⟩

/-! ### Loading -/

/-- The object of attribute `a` is not shared with any other attribute nor with the user. -/
def Unshared (m : Mem V) (a : Attr) : Prop :=
  (∀ b, b ≠ a → m.attr b ≠ m.attr a) ∧ ∀ l ∈ m.ext, l ≠ m.attr a

theorem loadKey_other {m : Mem V} (h : Sep m) (ex : List Attr) {e : Attr × ℕ} {a : Attr}
    (hne : e.1 ≠ a) : (loadKey ex m e).get a = m.get a := by
  unfold loadKey
  split
  · rfl
  · show (if (if a = e.1 then m.next else m.attr a) = m.next then _ else
      m.heap (if a = e.1 then m.next else m.attr a)) = _
    rw [if_neg (Ne.symm hne), if_neg (h.attr_lt a).ne]
    rfl

theorem loadKey_other_unshared {m : Mem V} (h : Sep m) (ex : List Attr) {e : Attr × ℕ} {a : Attr}
    (hne : e.1 ≠ a) (hu : Unshared m a) : Unshared (loadKey ex m e) a := by
  unfold loadKey
  split
  · exact hu
  · refine ⟨fun b hb => ?_, fun l hl => ?_⟩
    · show (if b = e.1 then m.next else m.attr b) ≠ (if a = e.1 then m.next else m.attr a)
      rw [if_neg (Ne.symm hne)]
      split
      · exact (h.attr_lt a).ne'
      · exact hu.1 b hb
    · show l ≠ (if a = e.1 then m.next else m.attr a)
      rw [if_neg (Ne.symm hne)]
      exact hu.2 l hl

theorem loadDict_other {d : List (Attr × ℕ)} : ∀ {m : Mem V}, Sep m → ∀ (ex : List Attr) {a : Attr},
    a ∉ d.map Prod.fst → (loadDict ex d m).get a = m.get a := by
  induction d with
  | nil => intro m _ ex a _; rfl
  | cons e d ih =>
    intro m h ex a ha
    rw [List.map_cons, List.mem_cons, not_or] at ha
    exact (ih (loadKey_sep h ex e).1 ex ha.2).trans (loadKey_other h ex (Ne.symm ha.1))

theorem loadDict_other_unshared {d : List (Attr × ℕ)} : ∀ {m : Mem V}, Sep m →
    ∀ (ex : List Attr) {a : Attr}, a ∉ d.map Prod.fst → Unshared m a →
    Unshared (loadDict ex d m) a := by
  induction d with
  | nil => intro m _ ex a _ hu; exact hu
  | cons e d ih =>
    intro m h ex a ha hu
    rw [List.map_cons, List.mem_cons, not_or] at ha
    exact ih (loadKey_sep h ex e).1 ex ha.2 (loadKey_other_unshared h ex (Ne.symm ha.1) hu)

theorem loadDict_excluded {d : List (Attr × ℕ)} : ∀ {m : Mem V}, Sep m →
    ∀ (ex : List Attr) {a : Attr}, a ∈ ex → (loadDict ex d m).get a = m.get a := by
  induction d with
  | nil => intro m _ ex a _; rfl
  | cons e d ih =>
    intro m h ex a ha
    refine (ih (loadKey_sep h ex e).1 ex ha).trans ?_
    by_cases hea : e.1 = a
    · unfold loadKey; rw [if_pos (hea ▸ ha)]
    · exact loadKey_other h ex hea

/-- Loading a dictionary with distinct keys whose objects are all existing ones sets each
attribute to the contents of its entry, in an object nobody else refers to. -/
theorem loadDict_get {d : List (Attr × ℕ)} : ∀ {m : Mem V}, Sep m → ∀ (ex : List Attr),
    (d.map Prod.fst).Nodup → (∀ e ∈ d, e.2 < m.next) → ∀ {a : Attr} {l : ℕ}, (a, l) ∈ d → a ∉ ex →
    (loadDict ex d m).get a = m.heap l ∧ Unshared (loadDict ex d m) a := by
  induction d with
  | nil => intro m _ ex _ _ a l hm; exact absurd hm (by simp)
  | cons e d ih =>
    intro m h ex hnd hlt a l hm hex
    rw [List.map_cons, List.nodup_cons] at hnd
    have hsep := (loadKey_sep h ex e).1
    rcases List.mem_cons.1 hm with rfl | hm
    · have hget : (loadKey ex m (a, l)).get a = m.heap l := by
        unfold loadKey
        rw [if_neg hex]
        show (if (if a = a then m.next else m.attr a) = m.next then m.heap l else
          m.heap (if a = a then m.next else m.attr a)) = m.heap l
        rw [if_pos rfl, if_pos rfl]
      have hun : Unshared (loadKey ex m (a, l)) a := by
        unfold loadKey
        rw [if_neg hex]
        refine ⟨fun b hb => ?_, fun l' hl => ?_⟩
        · show (if b = a then m.next else m.attr b) ≠ (if a = a then m.next else m.attr a)
          rw [if_pos rfl, if_neg hb]
          exact (h.attr_lt b).ne
        · show l' ≠ (if a = a then m.next else m.attr a)
          rw [if_pos rfl]
          exact (h.ext_lt l' hl).ne
      refine ⟨(loadDict_other hsep ex hnd.1).trans hget, loadDict_other_unshared hsep ex hnd.1 hun⟩
    · have hlt' : ∀ e' ∈ d, e'.2 < (loadKey ex m e).next := by
        intro e' he'
        have h1 := hlt e' (List.mem_cons_of_mem _ he')
        have h2 : m.next ≤ (loadKey ex m e).next := by
          unfold loadKey
          split
          · exact le_refl _
          · exact Nat.le_succ _
        exact lt_of_lt_of_le h1 h2
      have hheap : (loadKey ex m e).heap l = m.heap l := by
        unfold loadKey
        split
        · rfl
        · exact if_neg (hlt (a, l) (List.mem_cons_of_mem _ hm)).ne
      obtain ⟨h1, h2⟩ := ih hsep ex hnd.2 hlt' hm hex
      exact ⟨h1.trans hheap, h2⟩

theorem pokeAttrs_get {ws : List (Attr × V)} : ∀ {m : Mem V} {a : Attr}, Unshared m a →
    (∀ w ∈ ws, w.1 ≠ a) → (pokeAttrs ws m).get a = m.get a := by
  induction ws with
  | nil => intro m a _ _; rfl
  | cons w ws ih =>
    intro m a hu hw
    have h1 : (m.poke (m.attr w.1) w.2).get a = m.get a :=
      if_neg (Ne.symm (hu.1 _ (hw w (List.mem_cons_self))))
    exact (ih (m := m.poke (m.attr w.1) w.2) hu
      (fun w' hw' => hw w' (List.mem_cons_of_mem _ hw'))).trans h1

/-! ### Properties -/

/-- **C45, saved states are isolated.**  After any history of the program from construction on
(operations of the solver and of the user, and any number of saves), further operations other than
`save_state` leave every entry of `model.states` as it is: in-place overwriting of the model's or of
the user's arrays, rebinding and aliasing attributes, loading. -/
theorem C45_saved_isolated {m0 : Mem V} (h0 : Fresh m0) (n_o n_w n_p : ℕ)
    (hist : List (Event V)) (ops : List (Op V)) (a : Attr) :
    (runOps ops (runHist n_o n_w n_p hist m0)).saved a
      = (runHist n_o n_w n_p hist m0).saved a :=
  (runOps_sep (runHist_sep h0.sep n_o n_w n_p hist) ops).2.saved a

/-- **C45, what `save_state` stores** are the contents of the attributes, and it changes none of
them. -/
theorem C45_save_stores {m0 : Mem V} (h0 : Fresh m0) (n_o n_w n_p : ℕ) (hist : List (Event V)) :
    (∀ a ∈ savedKeys n_o n_w n_p,
      (saveState n_o n_w n_p (runHist n_o n_w n_p hist m0)).saved a
        = some ((runHist n_o n_w n_p hist m0).get a)) ∧
    ∀ a, (saveState n_o n_w n_p (runHist n_o n_w n_p hist m0)).get a
        = (runHist n_o n_w n_p hist m0).get a := by
  have hs := runHist_sep h0.sep n_o n_w n_p hist
  obtain ⟨h1, h2, _, h4⟩ := foldl_saveKey (ks := savedKeys n_o n_w n_p) hs
  exact ⟨fun a ha => savedIs_find h1 (h4 a ha), h2⟩

/-- **C45, round trip.**  `save_state`, then anything but another save, then `load_state()`: every
saved attribute that is not excluded and not recomputed by the geometry kernels shows exactly what
it showed when the state was saved. -/
theorem C45_round_trip {m0 : Mem V} (h0 : Fresh m0) (n_o n_w n_p : ℕ) (hist : List (Event V))
    (ops : List (Op V)) (exclude : List Attr) (recompute : Mem V → List (Attr × V)) (a : Attr)
    (ha : a ∈ savedKeys n_o n_w n_p) (hex : a ∉ exclude)
    (hgeom : ∀ m, ∀ w ∈ recompute m, w.1 ≠ a) :
    (loadState [] exclude recompute
      (runOps ops (saveState n_o n_w n_p (runHist n_o n_w n_p hist m0)))).get a
      = (runHist n_o n_w n_p hist m0).get a := by
  have hs := runHist_sep h0.sep n_o n_w n_p hist
  obtain ⟨h1, _, _, h4⟩ := foldl_saveKey (ks := savedKeys n_o n_w n_p) hs
  obtain ⟨h5, h6⟩ := runOps_sep h1 ops
  obtain ⟨l, hl, hv⟩ := (h4 a ha).same h6
  obtain ⟨h7, h8⟩ := loadDict_get h5 exclude h5.nodup h5.saved_lt hl hex
  show (pokeAttrs _ (loadDict exclude (if ([] : List (Attr × ℕ)) = [] then _ else []) _)).get a = _
  rw [if_pos rfl]
  exact (pokeAttrs_get h8 (hgeom _)).trans (h7.trans hv)

/-- **C45, round trip of the state proper**: time, heads, depths, flows, positions and volumes are
restored by `load_state()` together with its recomputation of the hydraulic geometry, which writes
only areas (`A_ik`, `A_uk`, `A_dk`, `A_sj`) and attributes that are not part of a saved state. -/
theorem C45_round_trip_state {m0 : Mem V} (h0 : Fresh m0) (n_o n_w n_p : ℕ)
    (hist : List (Event V)) (ops : List (Op V)) (recompute : Mem V → List (Attr × V))
    (hgeom : ∀ m, ∀ w ∈ recompute m,
      w.1 ∈ [Attr.A_ik, Attr.A_uk, Attr.A_dk, Attr.A_sj] ∨ ∃ n, w.1 = Attr.other n) (a : Attr)
    (ha : a ∈ [Attr.t, Attr.H_j, Attr.h_Ik, Attr.Q_ik, Attr.Q_uk, Attr.Q_dk, Attr.x_Ik, Attr.V_j]
      ∨ (a = Attr.Q_o ∧ n_o ≠ 0) ∨ (a = Attr.Q_w ∧ n_w ≠ 0) ∨ (a = Attr.Q_p ∧ n_p ≠ 0)) :
    (loadState [] [] recompute
      (runOps ops (saveState n_o n_w n_p (runHist n_o n_w n_p hist m0)))).get a
      = (runHist n_o n_w n_p hist m0).get a := by
  refine C45_round_trip h0 n_o n_w n_p hist ops [] recompute a ?_ (by simp) ?_
  · unfold savedKeys
    rcases ha with ha | ⟨rfl, hn⟩ | ⟨rfl, hn⟩ | ⟨rfl, hn⟩
    · simp only [List.mem_cons, List.not_mem_nil, or_false] at ha
      rcases ha with rfl | rfl | rfl | rfl | rfl | rfl | rfl | rfl <;> simp
    · simp [hn]
    · simp [hn]
    · simp [hn]
  · intro m w hw hwa
    have := hgeom m w hw
    rw [hwa] at this
    rcases ha with ha | ⟨rfl, _⟩ | ⟨rfl, _⟩ | ⟨rfl, _⟩
    · simp only [List.mem_cons, List.not_mem_nil, or_false] at ha
      rcases ha with rfl | rfl | rfl | rfl | rfl | rfl | rfl | rfl <;> simp at this
    all_goals simp at this

/-- **C45, loaded arrays are private.**  After `load_state` from any dictionary with distinct keys
(the stored one, or one of the user's), every loaded attribute has the contents of its entry and
refers to an array that no other attribute and no variable of the user refers to. -/
theorem C45_load_private {m0 : Mem V} (h0 : Fresh m0) (n_o n_w n_p : ℕ) (hist : List (Event V))
    (d : List (Attr × ℕ)) (exclude : List Attr)
    (hnd : (d.map Prod.fst).Nodup)
    (hd : ∀ e ∈ d, e.2 ∈ (runHist n_o n_w n_p hist m0).ext) (a : Attr) (l : ℕ) (hm : (a, l) ∈ d)
    (hex : a ∉ exclude) :
    (loadState d exclude (fun _ => []) (runHist n_o n_w n_p hist m0)).get a
        = (runHist n_o n_w n_p hist m0).heap l ∧
      Unshared (loadState d exclude (fun _ => []) (runHist n_o n_w n_p hist m0)) a := by
  have hs := runHist_sep h0.sep n_o n_w n_p hist
  have hne : d ≠ [] := fun h => by rw [h] at hm; exact absurd hm (by simp)
  show (pokeAttrs _ (loadDict exclude (if d = [] then _ else d) _)).get a = _ ∧
    Unshared (pokeAttrs _ (loadDict exclude (if d = [] then _ else d) _)) a
  rw [if_neg hne]
  exact loadDict_get hs exclude hnd (fun e he => hs.ext_lt _ (hd e he)) hm hex

/-- **C45, excluded attributes** and attributes without an entry keep what they show. -/
theorem C45_load_excluded {m0 : Mem V} (h0 : Fresh m0) (n_o n_w n_p : ℕ) (hist : List (Event V))
    (d : List (Attr × ℕ)) (exclude : List Attr) (hne : d ≠ []) (a : Attr)
    (ha : a ∈ exclude ∨ a ∉ d.map Prod.fst) :
    (loadState d exclude (fun _ => []) (runHist n_o n_w n_p hist m0)).get a
      = (runHist n_o n_w n_p hist m0).get a := by
  have hs := runHist_sep h0.sep n_o n_w n_p hist
  show (pokeAttrs _ (loadDict exclude (if d = [] then _ else d) _)).get a = _
  rw [if_neg hne]
  rcases ha with ha | ha
  · exact loadDict_excluded hs exclude ha
  · exact loadDict_other hs exclude ha

/-- A small store for the cases below: attributes refer to the objects 0-15, contents are
numbers. -/
def exMem : Mem ℤ where
  heap := fun i => (i : ℤ)
  next := 100
  attr := fun a => match a with
    | .t => 0 | .H_j => 1 | .h_Ik => 2 | .Q_ik => 3 | .Q_uk => 4 | .Q_dk => 5 | .x_Ik => 6
    | .Q_o => 7 | .Q_w => 8 | .Q_p => 9 | .A_ik => 10 | .A_uk => 11 | .A_dk => 12 | .A_sj => 13
    | .V_j => 14 | .other _ => 2
  states := []
  ext := []

theorem exMem_fresh : Fresh exMem :=
  ⟨rfl, fun a => by cases a <;> simp [exMem], fun l hl => absurd hl (by simp [exMem])⟩

/-- Non-vacuous: an attribute that shares its array with `h_Ik` is overwritten in place, so `h_Ik`
changes, and loading brings the old depth back. -/
example :
    (runOps [.write (.other 0) 77] (saveState 1 0 0 exMem)).get .h_Ik = 77 ∧
    (loadState [] [] (fun _ => []) (runOps [.write (.other 0) 77] (saveState 1 0 0 exMem))).get .h_Ik
      = 2 := by
  refine ⟨rfl, ?_⟩
  have h := C45_round_trip_state (V := ℤ) exMem_fresh 1 0 0 [] [.write (.other 0) 77]
    (fun _ => []) (fun _ _ hw => absurd hw (by simp)) .h_Ik (Or.inl (by simp))
  exact h

end Pipedream.Heap
