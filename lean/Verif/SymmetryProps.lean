import Verif.PartProps
import Verif.InitialProps
import Mathlib.Logic.Equiv.Basic

/-!
# C150: symmetric networks stay symmetric

A network looks the same after exchanging some of its elements. If the initial values and the inputs do too,
every later state does: identical elements show identical values.
-/

namespace Pipedream.Step

open Pipedream.Sweep Pipedream.Link Pipedream.Superlink Pipedream.Control Pipedream.Network
open Pipedream.Geometry Pipedream.Interp

variable {m : Model} {P : Plan} {φ : Places} {gv : Given}

/-! ### Specification -/

/-- Exchanging elements by `φ` does not change the tables of the network. -/
def Symmetric (m : Model) (P : Plan) (φ : Places) : Prop := Reordered m P m P φ

/-- Nor the initial values, … -/
structure SymGiven (m : Model) (φ : Places) (gv : Given) : Prop where
  h0 : ∀ j, j < m.M → gv.h0 (φ.J j) = gv.h0 j
  hJ : ∀ k, k < m.ix.NK → ∀ j, j ≤ m.ix.nk k → gv.hJ (m.ix.I_1k (φ.K k) + j) = gv.hJ (m.ix.I_1k k + j)
  Q0 : ∀ k, k < m.ix.NK → ∀ j, j < m.ix.nk k → gv.Q0 (m.ix.i_1k (φ.K k) + j) = gv.Q0 (m.ix.i_1k k + j)
  Ao : ∀ k, k < m.n_o → gv.Ao (φ.O k) = gv.Ao k

/-- … nor the inputs of a call. -/
def SymInputs (m : Model) (φ : Places) (inp : Inputs) : Prop := ShowsInputs m m φ inp inp

/-- A state in which exchanged elements show the same values. -/
def SymState (m : Model) (φ : Places) (s : Hyd) : Prop := ShowsState m m φ s s

/-- Two superlinks between the same superjunctions with the same data. -/
structure TwinPipes (m : Model) (P : Plan) (a b : ℕ) : Prop where
  a_lt : a < m.ix.NK
  b_lt : b < m.ix.NK
  Ju : m.Ju a = m.Ju b
  Jd : m.Jd a = m.Jd b
  nk : m.ix.nk a = m.ix.nk b
  max_depth_k : m.max_depth_k a = m.max_depth_k b
  dx_uk : m.dx_uk a = m.dx_uk b
  dx_dk : m.dx_dk a = m.dx_dk b
  z_uk : m.z_uk a = m.z_uk b
  z_dk : m.z_dk a = m.z_dk b
  C_uk : m.C_uk a = m.C_uk b
  C_dk : m.C_dk a = m.C_dk b
  dx : ∀ j, j < m.ix.nk a → m.dx (m.ix.i_1k a + j) = m.dx (m.ix.i_1k b + j)
  n : ∀ j, j < m.ix.nk a → m.n (m.ix.i_1k a + j) = m.n (m.ix.i_1k b + j)
  A_c : ∀ j, j < m.ix.nk a → m.A_c (m.ix.i_1k a + j) = m.A_c (m.ix.i_1k b + j)
  C : ∀ j, j < m.ix.nk a → m.C (m.ix.i_1k a + j) = m.C (m.ix.i_1k b + j)
  ctrl : ∀ j, j < m.ix.nk a → m.ctrl (m.ix.i_1k a + j) = m.ctrl (m.ix.i_1k b + j)
  method : ∀ j, j < m.ix.nk a → m.method (m.ix.i_1k a + j) = m.method (m.ix.i_1k b + j)
  S_o : ∀ j, j < m.ix.nk a → m.S_o (m.ix.i_1k a + j) = m.S_o (m.ix.i_1k b + j)
  sec : ∀ j, j < m.ix.nk a → P.sec (m.ix.i_1k a + j) = P.sec (m.ix.i_1k b + j)
  A_S : ∀ j, j ≤ m.ix.nk a → m.A_S (m.ix.I_1k a + j) = m.A_S (m.ix.I_1k b + j)

/-- Two orifices between the same superjunctions with the same data. -/
structure TwinOrifices (m : Model) (P : Plan) (a b : ℕ) : Prop where
  a_lt : a < m.n_o
  b_lt : b < m.n_o
  Ju : m.Juo a = m.Juo b
  Jd : m.Jdo a = m.Jdo b
  data : m.orifice a = m.orifice b
  Co : m.Co a = m.Co b
  shape : P.oShape a = P.oShape b
  gp : P.oGP a = P.oGP b

/-- Two weirs between the same superjunctions with the same data. -/
structure TwinWeirs (m : Model) (a b : ℕ) : Prop where
  a_lt : a < m.n_w
  b_lt : b < m.n_w
  Ju : m.Juw a = m.Juw b
  Jd : m.Jdw a = m.Jdw b
  data : m.weir a = m.weir b

/-- Two pumps between the same superjunctions with the same data. -/
structure TwinPumps (m : Model) (a b : ℕ) : Prop where
  a_lt : a < m.n_p
  b_lt : b < m.n_p
  Ju : m.Jup a = m.Jup b
  Jd : m.Jdp a = m.Jdp b
  data : m.pump a = m.pump b

/-- Everything stays in place. -/
def Places.stay : Places := ⟨fun j => j, fun j => j, fun j => j, fun j => j, fun j => j⟩

/-! ### Lemmas -/

theorem swap_lt {n a b k : ℕ} (ha : a < n) (hb : b < n) (hk : k < n) : Equiv.swap a b k < n := by
  rw [Equiv.swap_apply_def]; split_ifs <;> assumption

theorem swap_fixed {α : Type*} {f : ℕ → α} {a b : ℕ} (e : f a = f b) (k : ℕ) : f (Equiv.swap a b k) = f k := by
  rw [Equiv.swap_apply_def]
  split_ifs with h h
  · rw [h, e]
  · rw [h, e]
  · rfl

/-- The same for values along a superlink. -/
theorem swap_along {α : Type*} {f : ℕ → α} {base len : ℕ → ℕ} {a b : ℕ} (hl : len a = len b)
    (e : ∀ j, j < len a → f (base a + j) = f (base b + j)) (k j : ℕ) (hj : j < len k) :
    f (base (Equiv.swap a b k) + j) = f (base k + j) := by
  rw [Equiv.swap_apply_def]
  split_ifs with h1 h2
  · subst h1; exact (e j hj).symm
  · subst h2; exact e j (hl ▸ hj)
  · rfl

theorem TwinPipes.symmetric {a b : ℕ} (t : TwinPipes m P a b) :
    Symmetric m P { Places.stay with K := Equiv.swap a b } := by
  constructor
  · constructor
    case K_lt => exact fun k hk => swap_lt t.a_lt t.b_lt hk
    case K_inj => exact fun i j _ _ h => (Equiv.swap a b).injective h
    case Ju => exact fun k _ => swap_fixed (f := m.Ju) t.Ju k
    case Jd => exact fun k _ => swap_fixed (f := m.Jd) t.Jd k
    case nk => exact fun k _ => swap_fixed t.nk k
    case max_depth_k => exact fun k _ => swap_fixed t.max_depth_k k
    case dx_uk => exact fun k _ => swap_fixed t.dx_uk k
    case dx_dk => exact fun k _ => swap_fixed t.dx_dk k
    case z_uk => exact fun k _ => swap_fixed t.z_uk k
    case z_dk => exact fun k _ => swap_fixed t.z_dk k
    case C_uk => exact fun k _ => swap_fixed t.C_uk k
    case C_dk => exact fun k _ => swap_fixed t.C_dk k
    case dx => exact fun k _ j hj => swap_along t.nk t.dx k j hj
    case n => exact fun k _ j hj => swap_along t.nk t.n k j hj
    case A_c => exact fun k _ j hj => swap_along t.nk t.A_c k j hj
    case C => exact fun k _ j hj => swap_along t.nk t.C k j hj
    case ctrl => exact fun k _ j hj => swap_along t.nk t.ctrl k j hj
    case method => exact fun k _ j hj => swap_along t.nk t.method k j hj
    case S_o => exact fun k _ j hj => swap_along t.nk t.S_o k j hj
    case sec => exact fun k _ j hj => swap_along t.nk t.sec k j hj
    case A_S =>
      exact fun k _ j hj => swap_along (len := fun k => m.ix.nk k + 1) (congrArg (· + 1) t.nk)
        (fun j hj => t.A_S j (Nat.lt_succ_iff.mp hj)) k j (Nat.lt_succ_iff.mpr hj)
    all_goals (intros; first | rfl | assumption)
  all_goals rfl

theorem TwinOrifices.symmetric {a b : ℕ} (t : TwinOrifices m P a b) :
    Symmetric m P { Places.stay with O := Equiv.swap a b } := by
  constructor
  · constructor
    case O_lt => exact fun k hk => swap_lt t.a_lt t.b_lt hk
    case O_inj => exact fun i j _ _ h => (Equiv.swap a b).injective h
    case Juo => exact fun k _ => swap_fixed (f := m.Juo) t.Ju k
    case Jdo => exact fun k _ => swap_fixed (f := m.Jdo) t.Jd k
    case orifice => exact fun k _ => swap_fixed t.data k
    case Co => exact fun k _ => swap_fixed t.Co k
    case oShape => exact fun k _ => swap_fixed t.shape k
    case oGP => exact fun k _ => swap_fixed t.gp k
    all_goals (intros; first | rfl | assumption)
  all_goals rfl

theorem TwinWeirs.symmetric {a b : ℕ} (t : TwinWeirs m a b) :
    Symmetric m P { Places.stay with W := Equiv.swap a b } := by
  constructor
  · constructor
    case W_lt => exact fun k hk => swap_lt t.a_lt t.b_lt hk
    case W_inj => exact fun i j _ _ h => (Equiv.swap a b).injective h
    case Juw => exact fun k _ => swap_fixed (f := m.Juw) t.Ju k
    case Jdw => exact fun k _ => swap_fixed (f := m.Jdw) t.Jd k
    case weir => exact fun k _ => swap_fixed t.data k
    all_goals (intros; first | rfl | assumption)
  all_goals rfl

theorem TwinPumps.symmetric {a b : ℕ} (t : TwinPumps m a b) :
    Symmetric m P { Places.stay with Pp := Equiv.swap a b } := by
  constructor
  · constructor
    case P_lt => exact fun k hk => swap_lt t.a_lt t.b_lt hk
    case P_inj => exact fun i j _ _ h => (Equiv.swap a b).injective h
    case Jup => exact fun k _ => swap_fixed (f := m.Jup) t.Ju k
    case Jdp => exact fun k _ => swap_fixed (f := m.Jdp) t.Jd k
    case pump => exact fun k _ => swap_fixed t.data k
    all_goals (intros; first | rfl | assumption)
  all_goals rfl

theorem symCalls {l : List (Bool × Inputs)} (h : ∀ q ∈ l, SymInputs m φ q.2) : ShowsCalls m m φ l l := by
  induction l with
  | nil => exact .nil
  | cons q l ih => exact .cons (h q List.mem_cons_self) (ih fun q hq => h q (List.mem_cons_of_mem _ hq))

/-- The state before the hidden step is symmetric. -/
theorem symStart (c : m.Consistent) (sy : Symmetric m P φ) (sg : SymGiven m φ gv) : SymState m φ (m.start gv) where
  H := fun j hj => by simp only [Model.start]; rw [sg.h0 j hj, sy.z_inv j hj]
  h := sg.hJ
  Q := sg.Q0
  Qu := fun k hk => sg.Q0 k hk 0 (c.layout.pos k hk)
  Qd := fun k hk => by
    have hp := c.layout.pos k hk
    have e := sg.Q0 k hk (m.ix.nk k - 1) (by omega)
    simp only [Model.start]
    rw [sy.nk k hk, Nat.add_sub_assoc hp, Nat.add_sub_assoc hp]
    exact e
  Qo := fun _ _ => rfl
  Qw := fun _ _ => rfl
  Qp := fun _ _ => rfl

/-! ### C150 -/

/-- **C150.** If exchanging elements by `φ` changes neither the tables nor the state nor the inputs, it changes
no later state either. -/
theorem C150_stays_symmetric (sd : Sound m P) (lt : LinkTables m P) (sy : Symmetric m P φ)
    {l : List (Bool × Inputs)} (hl : ∀ q ∈ l, GoodInputs m P q.2 ∧ SymInputs m φ q.2) {o a : Obj} (go : GoodObj m o)
    (so : Shows m m φ o o) (r : History m P l o a) : SymState m φ a.cur :=
  (C108_order_of_rows sd sd.cons lt lt sy (symCalls fun q hq => (hl q hq).2) (fun q hq => (hl q hq).1) go go.clean so r
    r).cur

/-- **C150 (from construction).** The same for a model built with symmetric tables and initial values. -/
theorem C150_built_symmetric (sd : Sound m P) (lt : LinkTables m P) (nr : NoRound m P) (sy : Symmetric m P φ)
    (sg : SymGiven m φ gv) (wet : ∀ I, m.min_depth ≤ gv.hJ I) {l : List (Bool × Inputs)}
    (hl : ∀ q ∈ l, GoodInputs m P q.2 ∧ SymInputs m φ q.2) {o a : Obj} (hb : Built m P gv o)
    (r : History m P l o a) : SymState m φ a.cur := by
  have st := symStart sd.cons sy sg
  refine C150_stays_symmetric sd lt sy (l := (true, hiddenInputs) :: l) (fun q hq => ?_) (blankGood wet)
    ⟨st, st, fun _ _ => rfl, fun _ _ => rfl, sg.Ao⟩ ⟨o, hb, r⟩
  rcases List.mem_cons.mp hq with rfl | hq
  · exact ⟨hiddenGood nr, ⟨rfl, rfl, fun f _ h => by simp [hiddenInputs] at h, fun _ _ => rfl, fun _ _ _ _ => rfl,
      fun _ _ => rfl, fun _ _ => rfl, fun _ _ => rfl⟩⟩
  · exact hl q hq

/-- **C150 (parallel pipes).** Two superlinks with the same data between the same superjunctions, which start
with the same depths and flows and receive the same inflows, show the same depths and flows for ever. -/
theorem C150_parallel_pipes (sd : Sound m P) (lt : LinkTables m P) (nr : NoRound m P) {a b : ℕ} (t : TwinPipes m P a b)
    (hJ : ∀ j, j ≤ m.ix.nk a → gv.hJ (m.ix.I_1k a + j) = gv.hJ (m.ix.I_1k b + j))
    (hQ : ∀ j, j < m.ix.nk a → gv.Q0 (m.ix.i_1k a + j) = gv.Q0 (m.ix.i_1k b + j))
    (wet : ∀ I, m.min_depth ≤ gv.hJ I) {l : List (Bool × Inputs)}
    (hl : ∀ q ∈ l, GoodInputs m P q.2 ∧
      ∀ j, j ≤ m.ix.nk a → q.2.Q_0Ik (m.ix.I_1k a + j) = q.2.Q_0Ik (m.ix.I_1k b + j)) {o e : Obj} (hb : Built m P gv o)
    (r : History m P l o e) :
    e.cur.Qu a = e.cur.Qu b ∧ e.cur.Qd a = e.cur.Qd b ∧
      (∀ j, j ≤ m.ix.nk a → e.cur.h (m.ix.I_1k a + j) = e.cur.h (m.ix.I_1k b + j)) ∧
      ∀ j, j < m.ix.nk a → e.cur.Q (m.ix.i_1k a + j) = e.cur.Q (m.ix.i_1k b + j) := by
  have len1 : (fun k => m.ix.nk k + 1) a = (fun k => m.ix.nk k + 1) b := congrArg (· + 1) t.nk
  have s := C150_built_symmetric (gv := gv) sd lt nr t.symmetric
    ⟨fun _ _ => rfl,
      fun k _ j hj => swap_along (len := fun k => m.ix.nk k + 1) len1 (fun j hj => hJ j (Nat.lt_succ_iff.mp hj)) k j
        (Nat.lt_succ_iff.mpr hj),
      fun k _ j hj => swap_along t.nk hQ k j hj, fun _ _ => rfl⟩ wet
    (fun q hq => ⟨(hl q hq).1, ⟨rfl, rfl, fun f f' h h' _ _ => by rw [h] at h'; cases h'; rfl, fun _ _ => rfl,
      fun k _ j hj => swap_along (len := fun k => m.ix.nk k + 1) len1
        (fun j hj => (hl q hq).2 j (Nat.lt_succ_iff.mp hj)) k j (Nat.lt_succ_iff.mpr hj),
      fun _ _ => rfl, fun _ _ => rfl, fun _ _ => rfl⟩⟩) hb r
  have sw : Equiv.swap a b b = a := Equiv.swap_apply_right a b
  refine ⟨?_, ?_, fun j hj => ?_, fun j hj => ?_⟩
  · have := s.Qu b t.b_lt; simp only [sw] at this; exact this
  · have := s.Qd b t.b_lt; simp only [sw] at this; exact this
  · have := s.h b t.b_lt j (t.nk ▸ hj); simp only [sw] at this; exact this
  · have := s.Q b t.b_lt j (t.nk ▸ hj); simp only [sw] at this; exact this

/-- **C150 (parallel controls).** Two orifices (weirs, pumps) with the same data between the same superjunctions
and with the same settings show the same flow after every call. -/
theorem C150_parallel_orifices (sd : Sound m P) (lt : LinkTables m P) (nr : NoRound m P) {a b : ℕ}
    (t : TwinOrifices m P a b) (hA : gv.Ao a = gv.Ao b) (wet : ∀ I, m.min_depth ≤ gv.hJ I) {l : List (Bool × Inputs)}
    (hl : ∀ q ∈ l, GoodInputs m P q.2 ∧ q.2.u_o a = q.2.u_o b) {o e : Obj} (hb : Built m P gv o)
    (r : History m P l o e) : e.cur.Qo a = e.cur.Qo b := by
  have s := C150_built_symmetric (gv := gv) sd lt nr t.symmetric
    ⟨fun _ _ => rfl, fun _ _ _ _ => rfl, fun _ _ _ _ => rfl, fun k _ => swap_fixed hA k⟩ wet
    (fun q hq => ⟨(hl q hq).1, ⟨rfl, rfl, fun f f' h h' _ _ => by rw [h] at h'; cases h'; rfl, fun _ _ => rfl,
      fun _ _ _ _ => rfl, fun k _ => swap_fixed (hl q hq).2 k, fun _ _ => rfl, fun _ _ => rfl⟩⟩) hb r
  have := s.Qo b t.b_lt
  simp only [Equiv.swap_apply_right a b] at this
  exact this

theorem C150_parallel_weirs (sd : Sound m P) (lt : LinkTables m P) (nr : NoRound m P) {a b : ℕ}
    (t : TwinWeirs m a b) (wet : ∀ I, m.min_depth ≤ gv.hJ I) {l : List (Bool × Inputs)}
    (hl : ∀ q ∈ l, GoodInputs m P q.2 ∧ q.2.u_w a = q.2.u_w b) {o e : Obj} (hb : Built m P gv o)
    (r : History m P l o e) : e.cur.Qw a = e.cur.Qw b := by
  have s := C150_built_symmetric (gv := gv) sd lt nr t.symmetric
    ⟨fun _ _ => rfl, fun _ _ _ _ => rfl, fun _ _ _ _ => rfl, fun _ _ => rfl⟩ wet
    (fun q hq => ⟨(hl q hq).1, ⟨rfl, rfl, fun f f' h h' _ _ => by rw [h] at h'; cases h'; rfl, fun _ _ => rfl,
      fun _ _ _ _ => rfl, fun _ _ => rfl, fun k _ => swap_fixed (hl q hq).2 k, fun _ _ => rfl⟩⟩) hb r
  have := s.Qw b t.b_lt
  simp only [Equiv.swap_apply_right a b] at this
  exact this

theorem C150_parallel_pumps (sd : Sound m P) (lt : LinkTables m P) (nr : NoRound m P) {a b : ℕ}
    (t : TwinPumps m a b) (wet : ∀ I, m.min_depth ≤ gv.hJ I) {l : List (Bool × Inputs)}
    (hl : ∀ q ∈ l, GoodInputs m P q.2 ∧ q.2.u_p a = q.2.u_p b) {o e : Obj} (hb : Built m P gv o)
    (r : History m P l o e) : e.cur.Qp a = e.cur.Qp b := by
  have s := C150_built_symmetric (gv := gv) sd lt nr t.symmetric
    ⟨fun _ _ => rfl, fun _ _ _ _ => rfl, fun _ _ _ _ => rfl, fun _ _ => rfl⟩ wet
    (fun q hq => ⟨(hl q hq).1, ⟨rfl, rfl, fun f f' h h' _ _ => by rw [h] at h'; cases h'; rfl, fun _ _ => rfl,
      fun _ _ _ _ => rfl, fun _ _ => rfl, fun _ _ => rfl, fun k _ => swap_fixed (hl q hq).2 k⟩⟩) hb r
  have := s.Qp b t.b_lt
  simp only [Equiv.swap_apply_right a b] at this
  exact this

/-! ### Examples -/

/-- Two pipes and two weirs side by side. -/
noncomputable def twinModel : Model :=
  { reModel with
    N := 2
    ix := { NK := 2, nk := fun _ => 1, I_1k := fun k => 2 * k, i_1k := fun k => k }
    nix := { kI := fun I => I / 2, fwd := fun I => (I + 1) / 2, bwd := fun I => I / 2, isStart := fun I => I % 2 == 0,
             isEnd := fun I => I % 2 == 1 }
    linkStart := fun _ => true
    linkEnd := fun _ => true
    n_w := 2
    Juw := fun _ => 0
    Jdw := fun _ => 1
    weir := fun _ => ⟨1, 0, 1, 1, 1, 1, 1⟩ }

noncomputable def twinPlan : Plan := { rePlan with Ik := fun i => 2 * i }

theorem twinPipes : TwinPipes twinModel twinPlan 0 1 := by
  constructor <;> simp [twinModel, twinPlan, reModel, rePlan]

theorem twinWeirs : TwinWeirs twinModel 0 1 := by
  constructor <;> simp [twinModel]

theorem twinTables : LinkTables twinModel twinPlan := by
  refine ⟨⟨?_, ?_⟩, ?_⟩ <;> simp [twinModel, twinPlan]

theorem twinSound : Sound twinModel twinPlan := by
  refine ⟨?_, ?_, ?_, ?_, ?_, ?_, ?_, ?_, ?_, ?_, ?_, ?_, ?_, ?_, ?_, ?_, ?_⟩
  · refine ⟨⟨fun _ _ => ?_, fun k k' h h' hk => ?_, fun k k' h h' hk => ?_⟩, ?_, fun k hk => ⟨?_, ?_, ?_, ?_, ?_⟩,
      ?_, ?_, ?_, ?_, ?_, ?_, ?_, ?_⟩ <;> simp [twinModel, reModel] at * <;> try omega
  all_goals first
    | (intros; simp [twinModel, twinPlan, reModel, rePlan, Section.Usable, Wettable, Valid, Storage.Usable]; done)
    | (norm_num [twinModel, twinPlan, reModel, rePlan, Section.Usable, Wettable, Valid, Storage.Usable])

/-- The two pipes and the two weirs can be built and run; the pipes share the flow, and so do the weirs. -/
example : ∃ o e, Built twinModel twinPlan (inGiven 1) o ∧
    History twinModel twinPlan [(true, reInp 3), (false, reInp 4)] o e ∧ e.cur.Qu 0 = e.cur.Qu 1 ∧
    e.cur.Q 0 = e.cur.Q 1 ∧ e.cur.Qw 0 = e.cur.Qw 1 := by
  have nr : NoRound twinModel twinPlan := fun a ha => by simp [twinModel, reModel] at ha
  have wet : ∀ I, twinModel.min_depth ≤ (inGiven 1).hJ I := fun _ => by norm_num [twinModel, reModel, inGiven]
  have good : ∀ q ∈ [(true, reInp 3), (false, reInp 4)], GoodInputs twinModel twinPlan q.2 := by
    intro q hq
    have key : ∀ H, GoodInputs twinModel twinPlan (reInp H) := fun H =>
      ⟨(reGood H).dt_pos, fun p hp => by simp [twinModel, reModel] at hp, fun a ha => by simp [twinModel, reModel] at ha⟩
    rcases List.mem_cons.mp hq with rfl | hq
    · exact key 3
    · rw [List.mem_singleton.mp hq]; exact key 4
  obtain ⟨o, hb, go, -⟩ := C147_builds (gv := inGiven 1) twinSound nr wet
  obtain ⟨e, r, -⟩ := C105_every_history_succeeds twinSound _ good go
  have p := C150_parallel_pipes twinSound twinTables nr twinPipes (fun _ _ => rfl) (fun _ _ => rfl) wet
    (fun q hq => ⟨good q hq, fun j _ => by
      rcases List.mem_cons.mp hq with rfl | hq
      · rfl
      · rw [List.mem_singleton.mp hq]; rfl⟩) hb r
  have w := C150_parallel_weirs twinSound twinTables nr twinWeirs wet (fun q hq => ⟨good q hq, by
      rcases List.mem_cons.mp hq with rfl | hq
      · rfl
      · rw [List.mem_singleton.mp hq]; rfl⟩) hb r
  exact ⟨o, e, hb, r, p.1, p.2.2.2 0 (by simp [twinModel]), w⟩

end Pipedream.Step
