import Mathlib.Data.List.Basic

/-!
# Saved states as Python objects

`SuperLink.save_state` and `SuperLink.load_state` (`pipedream_solver/superlink.py:3906-3953`)
are about *objects*: the attributes of the model, the `states` dictionary and variables of the
user all hold references to numpy arrays, and the solver overwrites many of those arrays in
place.  Whether a saved state survives is a question about aliasing, so this file models the
part of the Python store that matters.

* A location (`ℕ`) is an object; `heap` gives its contents and `next` is the first unused
  location.  Contents are an arbitrary type `V` (an array, or the float `t`).
* `attr` maps every attribute of the model to the object it refers to.  The attributes written
  by `save_state` are named; every other attribute is `other n`.
* `states` is the dictionary `self.states`, as an association list in insertion order.
* `ext` are the objects the user holds references to.
-/

namespace Pipedream.Heap

/-- Attributes of a `SuperLink` (`superlink.py:3910-3928`): those saved by `save_state`, and all
others. -/
inductive Attr where
  | t | H_j | h_Ik | Q_ik | Q_uk | Q_dk | x_Ik | Q_o | Q_w | Q_p | A_ik | A_uk | A_dk | A_sj | V_j
  | other (n : ℕ)
  deriving DecidableEq

/-- The store.  See the file header. -/
structure Mem (V : Type*) where
  heap : ℕ → V
  next : ℕ
  attr : Attr → ℕ
  states : List (Attr × ℕ)
  ext : List ℕ

variable {V : Type*}

/-- Overwrite the contents of the object at `l` (an in-place array write). -/
def Mem.poke (m : Mem V) (l : ℕ) (v : V) : Mem V :=
  { m with heap := fun i => if i = l then v else m.heap i }

/-- Create a new object with contents `v`; it lives at `m.next`. -/
def Mem.alloc (m : Mem V) (v : V) : Mem V :=
  { (m.poke m.next v) with next := m.next + 1 }

/-- `setattr(self, k, obj)`: the attribute now refers to the object.  The property setters
(`superlink.py:775-925`) go through `np.asarray`, which returns the same array object. -/
def Mem.setAttr (m : Mem V) (k : Attr) (l : ℕ) : Mem V :=
  { m with attr := fun a => if a = k then l else m.attr a }

/-- `d[k] = obj` on a dictionary: replace the entry of an existing key, else append. -/
def dictSet (d : List (Attr × ℕ)) (k : Attr) (l : ℕ) : List (Attr × ℕ) :=
  if d.any (fun e => e.1 = k) then d.map (fun e => if e.1 = k then (k, l) else e)
  else d ++ [(k, l)]

/-- `self.states[k] = np.copy(self.k)` (`superlink.py:3910-3928`): a new object with the contents
of the attribute.  `copy.copy(self.t)` of a float is the same: floats are immutable, so a new
object with equal contents cannot be told apart. -/
def saveKey (m : Mem V) (k : Attr) : Mem V :=
  let m' := m.alloc (m.heap (m.attr k))
  { m' with states := dictSet m.states k m.next }

/-- The keys written by `save_state`, in order (`superlink.py:3910-3928`). -/
def savedKeys (n_o n_w n_p : ℕ) : List Attr :=
  [Attr.t, Attr.H_j, Attr.h_Ik, Attr.Q_ik, Attr.Q_uk, Attr.Q_dk, Attr.x_Ik]
    ++ (if n_o ≠ 0 then [Attr.Q_o] else [])
    ++ (if n_w ≠ 0 then [Attr.Q_w] else [])
    ++ (if n_p ≠ 0 then [Attr.Q_p] else [])
    ++ [Attr.A_ik, Attr.A_uk, Attr.A_dk, Attr.A_sj, Attr.V_j]

/-- `SuperLink.save_state` (`superlink.py:3906-3928`). -/
def saveState (n_o n_w n_p : ℕ) (m : Mem V) : Mem V :=
  (savedKeys n_o n_w n_p).foldl saveKey m

/-- One turn of the loop of `load_state` (`superlink.py:3942-3945`):
`loaded_state = copy.copy(value); setattr(self, key, loaded_state)`.  `copy.copy` of an ndarray is
a new array. -/
def loadKey (exclude : List Attr) (m : Mem V) (e : Attr × ℕ) : Mem V :=
  if e.1 ∈ exclude then m
  else (m.alloc (m.heap e.2)).setAttr e.1 m.next

/-- The loop of `load_state` over the items of the dictionary (`superlink.py:3942-3945`). -/
def loadDict (exclude : List Attr) (d : List (Attr × ℕ)) (m : Mem V) : Mem V :=
  d.foldl (loadKey exclude) m

/-- Writes of contents through attributes, as done by the geometry kernels that `load_state` calls
last (`superlink.py:3947-3952`): `A_ik`, `B_ik`, ..., `A_sj`, `u_Ik` are overwritten in place. -/
def pokeAttrs (ws : List (Attr × V)) (m : Mem V) : Mem V :=
  ws.foldl (fun m w => m.poke (m.attr w.1) w.2) m

/-- `SuperLink.load_state(states, exclude_states)` (`superlink.py:3930-3953`).  An empty dictionary
selects `self.states`.  `recompute` stands for the contents the geometry kernels compute from the
restored state (none if `compute_hydraulic_geometries` is false). -/
def loadState (d : List (Attr × ℕ)) (exclude : List Attr) (recompute : Mem V → List (Attr × V))
    (m : Mem V) : Mem V :=
  let d' := if d = [] then m.states else d
  let m' := loadDict exclude d' m
  pokeAttrs (recompute m') m'

/-- What a program can do to the model and its arrays between saving and loading. -/
inductive Op (V : Type*) where
  /-- overwrite in place the array an attribute refers to (every numba kernel does this) -/
  | write (a : Attr) (v : V)
  /-- bind an attribute to a new array (e.g. `self.H_j = H_j_next`, `self.t += dt`) -/
  | rebind (a : Attr) (v : V)
  /-- make an attribute refer to the object of another attribute -/
  | alias (a b : Attr)
  /-- the user creates an array -/
  | userNew (v : V)
  /-- the user reads an attribute and keeps the reference -/
  | userGet (a : Attr)
  /-- the user assigns one of their arrays to an attribute (through a property setter) -/
  | userSet (a : Attr) (i : ℕ)
  /-- the user overwrites one of their arrays in place -/
  | userWrite (i : ℕ) (v : V)
  /-- `load_state(exclude_states=exclude)` from the stored state -/
  | loadSelf (exclude : List Attr) (ws : List (Attr × V))
  /-- `load_state(states=...)` with a dictionary of the user: key, and which of the user's arrays -/
  | loadUser (d : List (Attr × ℕ)) (exclude : List Attr) (ws : List (Attr × V))

/-- The user's `i`-th array (the first unused object when there is no such array; no operation
reaches it then because `runOp` ignores such indices). -/
def Mem.ref (m : Mem V) (i : ℕ) : Option ℕ := m.ext[i]?

/-- Effect of one operation. -/
def runOp (m : Mem V) : Op V → Mem V
  | .write a v => m.poke (m.attr a) v
  | .rebind a v => (m.alloc v).setAttr a m.next
  | .alias a b => m.setAttr a (m.attr b)
  | .userNew v => { (m.alloc v) with ext := m.ext ++ [m.next] }
  | .userGet a => { m with ext := m.ext ++ [m.attr a] }
  | .userSet a i => match m.ref i with
      | some l => m.setAttr a l
      | none => m
  | .userWrite i v => match m.ref i with
      | some l => m.poke l v
      | none => m
  | .loadSelf ex ws => loadState [] ex (fun _ => ws) m
  | .loadUser d ex ws =>
      loadState (d.filterMap fun e => (m.ref e.2).map fun l => (e.1, l)) ex (fun _ => ws) m

/-- A sequence of operations. -/
def runOps (ops : List (Op V)) (m : Mem V) : Mem V := ops.foldl runOp m

/-- Histories: operations interleaved with `save_state`. -/
inductive Event (V : Type*) where
  | op (o : Op V)
  | save

/-- Effect of a history. -/
def runEvent (n_o n_w n_p : ℕ) (m : Mem V) : Event V → Mem V
  | .op o => runOp m o
  | .save => saveState n_o n_w n_p m

/-- Effect of a whole history. -/
def runHist (n_o n_w n_p : ℕ) (es : List (Event V)) (m : Mem V) : Mem V :=
  es.foldl (runEvent n_o n_w n_p) m

/-- Contents of an attribute, what `model.a` shows. -/
def Mem.get (m : Mem V) (a : Attr) : V := m.heap (m.attr a)

/-- Contents of an entry of `model.states`. -/
def Mem.saved (m : Mem V) (a : Attr) : Option V :=
  (m.states.find? (fun e => e.1 = a)).map fun e => m.heap e.2

/-- A freshly constructed model: `self.states = {}` (`superlink.py:755`), every attribute refers to
an existing object. -/
def Fresh (m : Mem V) : Prop :=
  m.states = [] ∧ (∀ a, m.attr a < m.next) ∧ ∀ l ∈ m.ext, l < m.next

end Pipedream.Heap
