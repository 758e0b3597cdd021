import Verif.BaseSweepModel
import Verif.TopologyProps
import Verif.SweepProps
import Verif.LsqProps

/-!
# The sweeps of the base class

Property C124: the loops of the base class, which advance all superlinks together, leave the coefficients which the
numba class computes superlink by superlink.
-/

set_option linter.unusedSectionVars false
set_option linter.unusedVariables false

namespace Pipedream.Base

open Pipedream.Sweep Pipedream.Topology

variable {K : Type*} [Field K] [LinearOrder K] [IsStrictOrderedRing K]

/-! ### Writing whole arrays -/

theorem put_value {Is : List ℕ} {p : ℕ → ℕ} {v : ℕ → K} {a : ℕ → K} {x : ℕ} {w : K}
    (h : ∀ I ∈ Is, p I = x → v I = w) (h2 : a x = w ∨ ∃ I ∈ Is, p I = x) : put Is p v a x = w := by
  unfold put
  induction Is generalizing a with
  | nil =>
    rcases h2 with h2 | ⟨I, hI, -⟩
    · exact h2
    · exact absurd hI List.not_mem_nil
  | cons J Is ih =>
    rw [List.foldl_cons]
    refine ih (fun I hI => h I (List.mem_cons_of_mem _ hI)) ?_
    by_cases e : p J = x
    · left
      rw [← e, upd_same]
      exact h J (List.mem_cons_self ..) e
    · rcases h2 with h2 | ⟨I, hI, e2⟩
      · left
        rw [upd_other _ _ (Ne.symm e), h2]
      · rcases List.mem_cons.mp hI with rfl | hI
        · exact absurd e2 e
        · exact Or.inr ⟨I, hI, e2⟩

theorem put_other {Is : List ℕ} {p : ℕ → ℕ} {v : ℕ → K} {a : ℕ → K} {x : ℕ} (h : ∀ I ∈ Is, p I ≠ x) :
    put Is p v a x = a x := put_value (fun I hI e => absurd e (h I hI)) (Or.inl rfl)

/-! ### The values, superlink by superlink -/

/-- Values of link `j` of a superlink (local numbering), as the base class computes them. -/
def fwdVals (o : Bool) (g : K) (co : Coef K) : ℕ → FV K
  | 0 => fwdStart o g co 0 1 0
  | j + 1 =>
    let p := fwdVals o g co j
    let T := T_ik (co.a (j+1)) (co.b (j+1)) (co.c (j+1)) (co.A (j+1)) (co.E (j+1)) p.U g
    { T := T
      U := U_Ik (co.E (j+2)) (co.c (j+1)) (co.A (j+1)) T g
      V := V_Ik (co.P (j+1)) (co.a (j+1)) (co.D (j+1)) (co.D (j+2)) (co.c (j+1)) (co.A (j+1)) (co.E (j+1)) p.V p.U T g
      W := W_Ik (co.A (j+1)) (co.E (j+1)) (co.a (j+1)) p.W p.U T g }

/-- The entries of one link in the arrays. -/
def Fwd.at (s : Fwd K) (i I : ℕ) : FV K := ⟨s.T i, s.U I, s.V I, s.W I⟩

variable {t : Tables} {n J L : ℕ → ℕ}

/-- The frontier after `m` rounds. -/
def front (t : Tables) (n J : ℕ → ℕ) (m : ℕ) : List ℕ :=
  ((List.range t.NK).filter (fun k => m + 1 < n k)).map (fun k => J k + (m + 1))

theorem mem_front {m I : ℕ} : I ∈ front t n J m ↔ ∃ k, k < t.NK ∧ m + 1 < n k ∧ I = J k + (m + 1) := by
  unfold front
  simp only [List.mem_map, List.mem_filter, List.mem_range, decide_eq_true_eq]
  constructor
  · rintro ⟨k, ⟨h1, h2⟩, rfl⟩; exact ⟨k, h1, h2, rfl⟩
  · rintro ⟨k, h1, h2, rfl⟩; exact ⟨k, ⟨h1, h2⟩, rfl⟩

theorem front_zero (B : Blocks t n J L) :
    ((List.range t.NK).map t.I_2k).filter (fun I => !t.isEnd I) = front t n J 0 := by
  unfold front
  rw [List.filter_map]
  have e : (List.range t.NK).filter ((fun I => !t.isEnd I) ∘ t.I_2k) = (List.range t.NK).filter (fun k => 0 + 1 < n k) := by
    refine List.filter_congr fun k hk => ?_
    have hk := List.mem_range.1 hk
    have hp := B.pos k hk
    have := B.isEnd hk hp
    rw [Function.comp_apply, B.I_2k hk, eq_comm, Bool.eq_iff_iff]
    rw [Bool.not_eq_true', ← Bool.not_eq_true, this, decide_eq_true_eq]
    omega
  rw [e]
  refine List.map_congr_left fun k hk => ?_
  exact B.I_2k (List.mem_range.1 (List.mem_filter.1 hk).1)

theorem front_succ (B : Blocks t n J L) (m : ℕ) :
    ((front t n J m).map t.forwardII).filter (fun I => !t.isEnd I) = front t n J (m + 1) := by
  unfold front
  rw [List.map_map, List.filter_map, List.filter_filter]
  have e : (List.range t.NK).filter (fun k => ((fun I => !t.isEnd I) ∘ t.forwardII ∘ fun k => J k + (m + 1)) k
      && decide (m + 1 < n k)) = (List.range t.NK).filter (fun k => m + 1 + 1 < n k) := by
    refine List.filter_congr fun k hk => ?_
    have hk := List.mem_range.1 hk
    rw [eq_comm, Bool.eq_iff_iff, Bool.and_eq_true, decide_eq_true_eq, decide_eq_true_eq]
    simp only [Function.comp_apply]
    constructor
    · intro h
      refine ⟨?_, by omega⟩
      rw [B.forwardII hk (show m + 1 < n k by omega), Nat.add_assoc, Bool.not_eq_true', ← Bool.not_eq_true,
        B.isEnd hk (show m + 1 + 1 ≤ n k by omega)]
      omega
    · rintro ⟨h, h2⟩
      rw [B.forwardII hk h2, Nat.add_assoc, Bool.not_eq_true', ← Bool.not_eq_true, B.isEnd hk h2] at h
      omega
  rw [e]
  refine List.map_congr_left fun k hk => ?_
  obtain ⟨h1, h2⟩ := List.mem_filter.1 hk
  rw [List.mem_range] at h1; rw [decide_eq_true_eq] at h2
  show t.forwardII (J k + (m + 1)) = _
  rw [B.forwardII h1 (by omega)]; rfl

/-- After `m` rounds the first `m + 1` links of every superlink are done. -/
def FwdDone (t : Tables) (n J L : ℕ → ℕ) (o : Bool) (g : K) (co : Coef K) (m : ℕ) (s : Fwd K) : Prop :=
  ∀ k, k < t.NK → ∀ j, j ≤ m → j < n k → Fwd.at s (L k + j) (J k + j) = fwdVals o g (co.slice (L k) (J k)) j

theorem fwdInit_first (B : Blocks t n J L) (o : Bool) (g : K) (co : Coef K) (s : Fwd K) :
    ∀ k, k < t.NK → Fwd.at (fwdInit t o g co s) (L k) (J k) = fwdVals o g (co.slice (L k) (J k)) 0 := by
  intro k hk
  have hst : ∀ k, k < t.NK → fwdStart o g co (t.start k) (t.I_2k k) (t.i_1k k)
      = fwdVals o g (co.slice (L k) (J k)) 0 := by
    intro k hk
    rw [B.start k hk, B.I_2k hk, B.i_1k hk]; rfl
  have hL : ∀ k', k' ∈ List.range t.NK → t.i_1k k' = L k → k' = k := by
    intro k' hk' e
    have hk' := List.mem_range.1 hk'
    rw [B.i_1k hk'] at e
    exact (B.link_inj (j := 0) (j' := 0) hk' hk (B.pos k' hk') (B.pos k hk) e).1
  have hJ : ∀ k', k' ∈ List.range t.NK → t.start k' = J k → k' = k := by
    intro k' hk' e
    have hk' := List.mem_range.1 hk'
    rw [B.start k' hk'] at e
    exact (B.junc_inj (j := 0) (j' := 0) hk' hk (Nat.zero_le _) (Nat.zero_le _) e).1
  have h0 : ∃ k' ∈ List.range t.NK, t.i_1k k' = L k := ⟨k, List.mem_range.2 hk, B.i_1k hk⟩
  have h1 : ∃ k' ∈ List.range t.NK, t.start k' = J k := ⟨k, List.mem_range.2 hk, B.start k hk⟩
  rw [← hst k hk]
  unfold Fwd.at fwdInit
  have e1 := put_value (K := K) (a := s.T) (v := fun k => (fwdStart o g co (t.start k) (t.I_2k k) (t.i_1k k)).T)
    (fun k' hk' e => by rw [hL k' hk' e]) (Or.inr h0)
  have e2 := put_value (K := K) (a := s.U) (v := fun k => (fwdStart o g co (t.start k) (t.I_2k k) (t.i_1k k)).U)
    (fun k' hk' e => by rw [hJ k' hk' e]) (Or.inr h1)
  have e3 := put_value (K := K) (a := s.V) (v := fun k => (fwdStart o g co (t.start k) (t.I_2k k) (t.i_1k k)).V)
    (fun k' hk' e => by rw [hJ k' hk' e]) (Or.inr h1)
  have e4 := put_value (K := K) (a := s.W) (v := fun k => (fwdStart o g co (t.start k) (t.I_2k k) (t.i_1k k)).W)
    (fun k' hk' e => by rw [hJ k' hk' e]) (Or.inr h1)
  simp only [e1, e2, e3, e4]

theorem fwdInit_other (B : Blocks t n J L) (o : Bool) (g : K) (co : Coef K) (s : Fwd K) {k j : ℕ} (hk : k < t.NK)
    (hj : 1 ≤ j) (hjn : j < n k) : Fwd.at (fwdInit t o g co s) (L k + j) (J k + j) = Fwd.at s (L k + j) (J k + j) := by
  have hL : ∀ k' ∈ List.range t.NK, t.i_1k k' ≠ L k + j := by
    intro k' hk' e
    have hk' := List.mem_range.1 hk'
    rw [B.i_1k hk'] at e
    have := (B.link_inj (j := 0) hk' hk (B.pos k' hk') hjn e).2
    omega
  have hJ : ∀ k' ∈ List.range t.NK, t.start k' ≠ J k + j := by
    intro k' hk' e
    have hk' := List.mem_range.1 hk'
    rw [B.start k' hk'] at e
    have := (B.junc_inj (j := 0) hk' hk (Nat.zero_le _) hjn.le e).2
    omega
  unfold Fwd.at fwdInit
  simp only [put_other hL, put_other hJ]

theorem fwdBody_done (B : Blocks t n J L) {o : Bool} {g : K} {co : Coef K} {m : ℕ} {s : Fwd K}
    (D : FwdDone t n J L o g co m s) : FwdDone t n J L o g co (m + 1) (fwdBody t g co (front t n J m) s) := by
  have hpos : ∀ {k' k j : ℕ}, k' < t.NK → m + 1 < n k' → k < t.NK → j < n k →
      t.forwardIi (J k' + (m + 1)) = L k + j → k' = k ∧ j = m + 1 := by
    intro k' k j hk' hm hk hj e
    rw [B.forwardIi hk' hm] at e
    obtain ⟨h1, h2⟩ := B.link_inj hk' hk hm hj e
    exact ⟨h1, h2.symm⟩
  have hposJ : ∀ {k' k j : ℕ}, k' < t.NK → m + 1 < n k' → k < t.NK → j < n k →
      J k' + (m + 1) = J k + j → k' = k ∧ j = m + 1 := by
    intro k' k j hk' hm hk hj e
    obtain ⟨h1, h2⟩ := B.junc_inj hk' hk hm.le hj.le e
    exact ⟨h1, h2.symm⟩
  intro k hk j hj hjn
  by_cases hjm : j = m + 1
  · subst hjm
    have hI : J k + (m + 1) ∈ front t n J m := mem_front.2 ⟨k, hk, hjn, rfl⟩
    have old := D k hk m (le_refl _) (by omega)
    have hu : ∀ I ∈ front t n J m, I = J k + (m + 1) ∨ (t.forwardIi I ≠ L k + (m + 1) ∧ I ≠ J k + (m + 1)) := by
      intro I hI
      obtain ⟨k', hk', hm, rfl⟩ := mem_front.1 hI
      by_cases e : k' = k
      · left; rw [e]
      · right
        exact ⟨fun e' => e (hpos hk' hm hk hjn e').1, fun e' => e (hposJ hk' hm hk hjn e').1⟩
    have wrL : ∀ (v : ℕ → K) (a : ℕ → K), put (front t n J m) t.forwardIi v a (L k + (m + 1)) = v (J k + (m + 1)) := by
      intro v a
      refine put_value (fun I hI' e => ?_) (Or.inr ⟨_, hI, B.forwardIi hk hjn⟩)
      rcases hu I hI' with h | h
      · rw [h]
      · exact absurd e h.1
    have wrJ : ∀ (v : ℕ → K) (a : ℕ → K), put (front t n J m) (fun I => I) v a (J k + (m + 1)) = v (J k + (m + 1)) := by
      intro v a
      refine put_value (fun I hI' e => ?_) (Or.inr ⟨_, hI, rfl⟩)
      rw [show I = J k + (m + 1) from e]
    have keep : ∀ (v : ℕ → K) (a : ℕ → K), put (front t n J m) (fun I => I) v a (J k + m) = a (J k + m) := by
      intro v a
      refine put_other fun I hI' e => ?_
      obtain ⟨k', hk', hm, rfl⟩ := mem_front.1 hI'
      have := (hposJ hk' hm hk (show m < n k by omega) e).2
      omega
    have hb : t.backwardII (J k + (m + 1)) = J k + m := B.backwardII hk (show m < n k by omega)
    have hf : t.forwardII (J k + (m + 1)) = J k + (m + 2) := B.forwardII hk hjn
    have hi : t.forwardIi (J k + (m + 1)) = L k + (m + 1) := B.forwardIi hk hjn
    simp only [Fwd.at] at old
    have oU : s.U (J k + m) = (fwdVals o g (co.slice (L k) (J k)) m).U := by rw [← old]
    have oV : s.V (J k + m) = (fwdVals o g (co.slice (L k) (J k)) m).V := by rw [← old]
    have oW : s.W (J k + m) = (fwdVals o g (co.slice (L k) (J k)) m).W := by rw [← old]
    unfold Fwd.at fwdBody
    simp only [wrL, wrJ, hb, hf, hi, keep, oU, oV, oW]
    rfl
  · have hjm' : j ≤ m := by omega
    rw [← D k hk j hjm' hjn]
    have nL : ∀ I ∈ front t n J m, t.forwardIi I ≠ L k + j := by
      intro I hI e
      obtain ⟨k', hk', hm, rfl⟩ := mem_front.1 hI
      exact hjm (hpos hk' hm hk hjn e).2
    have nJ : ∀ I ∈ front t n J m, I ≠ J k + j := by
      intro I hI e
      obtain ⟨k', hk', hm, rfl⟩ := mem_front.1 hI
      exact hjm (hposJ hk' hm hk hjn e).2
    unfold Fwd.at fwdBody
    simp only [put_other nL, put_other (p := fun I => I) nJ]

theorem fwdLoop_done (B : Blocks t n J L) {o : Bool} {g : K} {co : Coef K} {fuel m : ℕ} {s : Fwd K}
    (hf : ∀ k, k < t.NK → n k ≤ fuel + m + 1) (D : FwdDone t n J L o g co m s) :
    ∃ s' m', fwdLoop t g co fuel (front t n J m) s = some s' ∧ FwdDone t n J L o g co m' s' ∧
      ∀ k, k < t.NK → n k ≤ m' + 1 := by
  induction fuel generalizing m s with
  | zero =>
    have : front t n J m = [] := by
      rw [List.eq_nil_iff_forall_not_mem]
      intro I hI
      obtain ⟨k, hk, h, -⟩ := mem_front.1 hI
      have := hf k hk
      omega
    rw [this]
    exact ⟨s, m, rfl, D, fun k hk => by have := hf k hk; omega⟩
  | succ fuel ih =>
    cases hfr : front t n J m with
    | nil =>
      refine ⟨s, m, rfl, D, fun k hk => ?_⟩
      by_contra h
      have : J k + (m + 1) ∈ front t n J m := mem_front.2 ⟨k, hk, by omega, rfl⟩
      rw [hfr] at this
      exact List.not_mem_nil this
    | cons I Is =>
      show ∃ s' m', fwdLoop t g co fuel (((I :: Is).map t.forwardII).filter (fun I => !t.isEnd I))
        (fwdBody t g co (I :: Is) s) = some s' ∧ _
      rw [← hfr, front_succ B]
      exact ih (fun k hk => by have := hf k hk; omega) (fwdBody_done B D)

/-- What the forward loop leaves. -/
theorem forward_values (B : Blocks t n J L) (o : Bool) (g : K) (co : Coef K) {fuel : ℕ}
    (hf : ∀ k, k < t.NK → n k ≤ fuel + 1) (s : Fwd K) :
    ∃ s', forwardRecurrence t o g co fuel s = some s' ∧ ∀ k, k < t.NK → ∀ j, j < n k →
      Fwd.at s' (L k + j) (J k + j) = fwdVals o g (co.slice (L k) (J k)) j := by
  have D0 : FwdDone t n J L o g co 0 (fwdInit t o g co s) := by
    intro k hk j hj _
    obtain rfl : j = 0 := by omega
    exact fwdInit_first B o g co s k hk
  obtain ⟨s1, m, e, D, hm⟩ := fwdLoop_done B (m := 0) hf D0
  refine ⟨fwdInit t o g co s1, ?_, fun k hk j hj => ?_⟩
  · unfold forwardRecurrence
    rw [front_zero B, e]; rfl
  · rcases Nat.eq_zero_or_pos j with rfl | h
    · exact fwdInit_first B o g co s1 k hk
    · rw [fwdInit_other B o g co s1 hk h hj]
      exact D k hk j (by have := hm k hk; omega) hj

/-! ### Backward -/

/-- Values of link `n - 1 - m` of a superlink with `n` links (local numbering). -/
def bwdVals (o : Bool) (g : K) (co : Coef K) (n : ℕ) : ℕ → BV K
  | 0 => bwdStart o g co (n - 1) n (n - 1)
  | m + 1 =>
    let j := n - 2 - m
    let p := bwdVals o g co n m
    let O := O_ik (co.a j) (co.b j) (co.c j) (co.A j) (co.E (j+1)) p.X g
    { O := O
      X := X_Ik (co.A j) (co.E j) (co.a j) O g
      Y := Y_Ik (co.P j) (co.a j) (co.D j) (co.D (j+1)) (co.c j) (co.A j) (co.E (j+1)) p.Y p.X O g
      Z := Z_Ik (co.A j) (co.E (j+1)) (co.c j) p.Z p.X O g }

/-- The entries of one link in the arrays. -/
def Bwd.at (s : Bwd K) (i I : ℕ) : BV K := ⟨s.O i, s.X I, s.Y I, s.Z I⟩

/-- The frontier after `m` rounds. -/
def back (t : Tables) (n J : ℕ → ℕ) (m : ℕ) : List ℕ :=
  ((List.range t.NK).filter (fun k => m + 1 < n k)).map (fun k => J k + (n k - 2 - m))

theorem mem_back {m I : ℕ} : I ∈ back t n J m ↔ ∃ k, k < t.NK ∧ m + 1 < n k ∧ I = J k + (n k - 2 - m) := by
  unfold back
  simp only [List.mem_map, List.mem_filter, List.mem_range, decide_eq_true_eq]
  constructor
  · rintro ⟨k, ⟨h1, h2⟩, rfl⟩; exact ⟨k, h1, h2, rfl⟩
  · rintro ⟨k, h1, h2, rfl⟩; exact ⟨k, ⟨h1, h2⟩, rfl⟩

theorem I_Nk_eq (B : Blocks t n J L) {k : ℕ} (hk : k < t.NK) : t.I_Nk k = J k + (n k - 1) := by
  have := B.pos k hk
  rw [B.I_Nk hk]; omega

theorem i_nk_eq (B : Blocks t n J L) {k : ℕ} (hk : k < t.NK) : t.i_nk k = L k + (n k - 1) := by
  have := B.pos k hk
  rw [B.i_nk hk]; omega

theorem back_zero (B : Blocks t n J L) :
    (((List.range t.NK).map t.I_Nk).filter (fun I => !t.isStart I)).map t.backwardII = back t n J 0 := by
  unfold back
  rw [List.filter_map, List.map_map]
  have e : (List.range t.NK).filter ((fun I => !t.isStart I) ∘ t.I_Nk) = (List.range t.NK).filter (fun k => 0 + 1 < n k) := by
    refine List.filter_congr fun k hk => ?_
    have hk := List.mem_range.1 hk
    have hp := B.pos k hk
    have := B.isStart hk (show n k - 1 ≤ n k by omega)
    rw [Function.comp_apply, I_Nk_eq B hk, eq_comm, Bool.eq_iff_iff]
    rw [Bool.not_eq_true', ← Bool.not_eq_true, this, decide_eq_true_eq]
    omega
  rw [e]
  refine List.map_congr_left fun k hk => ?_
  obtain ⟨h1, h2⟩ := List.mem_filter.1 hk
  rw [List.mem_range] at h1; rw [decide_eq_true_eq] at h2
  show t.backwardII (t.I_Nk k) = _
  have := B.backwardII (j := n k - 2) h1 (by omega)
  rw [I_Nk_eq B h1, show J k + (n k - 1) = J k + (n k - 2) + 1 by omega, this]
  omega

theorem back_succ (B : Blocks t n J L) (m : ℕ) :
    ((back t n J m).filter (fun I => !t.isStart I)).map t.backwardII = back t n J (m + 1) := by
  unfold back
  rw [List.filter_map, List.map_map, List.filter_filter]
  have e : (List.range t.NK).filter (fun k => ((fun I => !t.isStart I) ∘ fun k => J k + (n k - 2 - m)) k
      && decide (m + 1 < n k)) = (List.range t.NK).filter (fun k => m + 1 + 1 < n k) := by
    refine List.filter_congr fun k hk => ?_
    have hk := List.mem_range.1 hk
    rw [eq_comm, Bool.eq_iff_iff, Bool.and_eq_true, decide_eq_true_eq, decide_eq_true_eq]
    simp only [Function.comp_apply]
    rw [Bool.not_eq_true', ← Bool.not_eq_true, B.isStart hk (show n k - 2 - m ≤ n k by omega)]
    omega
  rw [e]
  refine List.map_congr_left fun k hk => ?_
  obtain ⟨h1, h2⟩ := List.mem_filter.1 hk
  rw [List.mem_range] at h1; rw [decide_eq_true_eq] at h2
  show t.backwardII (J k + (n k - 2 - m)) = _
  have := B.backwardII (j := n k - 2 - (m + 1)) h1 (by omega)
  rw [show J k + (n k - 2 - m) = J k + (n k - 2 - (m + 1)) + 1 by omega, this]

/-- After `m` rounds the last `m + 1` links of every superlink are done. -/
def BwdDone (t : Tables) (n J L : ℕ → ℕ) (o : Bool) (g : K) (co : Coef K) (m : ℕ) (s : Bwd K) : Prop :=
  ∀ k, k < t.NK → ∀ j, j ≤ m → j < n k →
    Bwd.at s (L k + (n k - 1 - j)) (J k + (n k - 1 - j)) = bwdVals o g (co.slice (L k) (J k)) (n k) j

theorem bwdInit_first (B : Blocks t n J L) (o : Bool) (g : K) (co : Coef K) (s : Bwd K) :
    ∀ k, k < t.NK → Bwd.at (bwdInit t o g co s) (L k + (n k - 1)) (J k + (n k - 1))
      = bwdVals o g (co.slice (L k) (J k)) (n k) 0 := by
  intro k hk
  have hst : ∀ k, k < t.NK → bwdStart o g co (t.I_Nk k) (t.fin k) (t.i_nk k)
      = bwdVals o g (co.slice (L k) (J k)) (n k) 0 := by
    intro k hk
    rw [B.fin k hk, I_Nk_eq B hk, i_nk_eq B hk]; rfl
  have hL : ∀ k', k' ∈ List.range t.NK → t.i_nk k' = L k + (n k - 1) → k' = k := by
    intro k' hk' e
    have hk' := List.mem_range.1 hk'
    have p1 := B.pos k hk
    have p2 := B.pos k' hk'
    rw [i_nk_eq B hk'] at e
    exact (B.link_inj hk' hk (by omega) (by omega) e).1
  have hJ : ∀ k', k' ∈ List.range t.NK → t.I_Nk k' = J k + (n k - 1) → k' = k := by
    intro k' hk' e
    have hk' := List.mem_range.1 hk'
    rw [I_Nk_eq B hk'] at e
    exact (B.junc_inj hk' hk (by omega) (by omega) e).1
  have h0 : ∃ k' ∈ List.range t.NK, t.i_nk k' = L k + (n k - 1) := ⟨k, List.mem_range.2 hk, i_nk_eq B hk⟩
  have h1 : ∃ k' ∈ List.range t.NK, t.I_Nk k' = J k + (n k - 1) := ⟨k, List.mem_range.2 hk, I_Nk_eq B hk⟩
  rw [← hst k hk]
  unfold Bwd.at bwdInit
  have e1 := put_value (K := K) (a := s.O) (v := fun k => (bwdStart o g co (t.I_Nk k) (t.fin k) (t.i_nk k)).O)
    (fun k' hk' e => by rw [hL k' hk' e]) (Or.inr h0)
  have e2 := put_value (K := K) (a := s.X) (v := fun k => (bwdStart o g co (t.I_Nk k) (t.fin k) (t.i_nk k)).X)
    (fun k' hk' e => by rw [hJ k' hk' e]) (Or.inr h1)
  have e3 := put_value (K := K) (a := s.Y) (v := fun k => (bwdStart o g co (t.I_Nk k) (t.fin k) (t.i_nk k)).Y)
    (fun k' hk' e => by rw [hJ k' hk' e]) (Or.inr h1)
  have e4 := put_value (K := K) (a := s.Z) (v := fun k => (bwdStart o g co (t.I_Nk k) (t.fin k) (t.i_nk k)).Z)
    (fun k' hk' e => by rw [hJ k' hk' e]) (Or.inr h1)
  simp only [e1, e2, e3, e4]

theorem bwdInit_other (B : Blocks t n J L) (o : Bool) (g : K) (co : Coef K) (s : Bwd K) {k j : ℕ} (hk : k < t.NK)
    (hjn : j + 1 < n k) : Bwd.at (bwdInit t o g co s) (L k + j) (J k + j) = Bwd.at s (L k + j) (J k + j) := by
  have hL : ∀ k' ∈ List.range t.NK, t.i_nk k' ≠ L k + j := by
    intro k' hk' e
    have hk' := List.mem_range.1 hk'
    have p2 := B.pos k' hk'
    rw [i_nk_eq B hk'] at e
    obtain ⟨rfl, h⟩ := B.link_inj hk' hk (show n k' - 1 < n k' by omega) (show j < n k by omega) e
    omega
  have hJ : ∀ k' ∈ List.range t.NK, t.I_Nk k' ≠ J k + j := by
    intro k' hk' e
    have hk' := List.mem_range.1 hk'
    rw [I_Nk_eq B hk'] at e
    obtain ⟨rfl, h⟩ := B.junc_inj hk' hk (show n k' - 1 ≤ n k' by omega) (show j ≤ n k by omega) e
    omega
  unfold Bwd.at bwdInit
  simp only [put_other hL, put_other hJ]

theorem bwdBody_done (B : Blocks t n J L) {o : Bool} {g : K} {co : Coef K} {m : ℕ} {s : Bwd K}
    (D : BwdDone t n J L o g co m s) : BwdDone t n J L o g co (m + 1) (bwdBody t g co (back t n J m) s) := by
  have hpos : ∀ {k' k j : ℕ}, k' < t.NK → m + 1 < n k' → k < t.NK → j < n k →
      t.forwardIi (J k' + (n k' - 2 - m)) = L k + j → k' = k ∧ j = n k - 2 - m := by
    intro k' k j hk' hm hk hj e
    rw [B.forwardIi hk' (by omega)] at e
    obtain ⟨rfl, h2⟩ := B.link_inj hk' hk (by omega) hj e
    exact ⟨rfl, h2.symm⟩
  have hposJ : ∀ {k' k j : ℕ}, k' < t.NK → m + 1 < n k' → k < t.NK → j < n k →
      J k' + (n k' - 2 - m) = J k + j → k' = k ∧ j = n k - 2 - m := by
    intro k' k j hk' hm hk hj e
    obtain ⟨rfl, h2⟩ := B.junc_inj hk' hk (by omega) hj.le e
    exact ⟨rfl, h2.symm⟩
  intro k hk j hj hjn
  by_cases hjm : j = m + 1
  · subst hjm
    obtain ⟨q, hq⟩ : ∃ q, q = n k - 2 - m := ⟨_, rfl⟩
    have hq1 : n k - 1 - (m + 1) = q := by omega
    have hqn : q + 1 < n k := by omega
    have hq2 : n k - 1 - m = q + 1 := by omega
    rw [hq1]
    have hI : J k + q ∈ back t n J m := mem_back.2 ⟨k, hk, hjn, by rw [hq]⟩
    have old := D k hk m (le_refl _) (by omega)
    rw [hq2] at old
    have hu : ∀ I ∈ back t n J m, I = J k + q ∨ (t.forwardIi I ≠ L k + q ∧ I ≠ J k + q) := by
      intro I hI
      obtain ⟨k', hk', hm, rfl⟩ := mem_back.1 hI
      by_cases e : k' = k
      · left; rw [e, hq]
      · right
        exact ⟨fun e' => e (hpos hk' hm hk (by omega) e').1, fun e' => e (hposJ hk' hm hk (by omega) e').1⟩
    have wrL : ∀ (v : ℕ → K) (a : ℕ → K), put (back t n J m) t.forwardIi v a (L k + q) = v (J k + q) := by
      intro v a
      refine put_value (fun I hI' e => ?_) (Or.inr ⟨_, hI, B.forwardIi hk (by omega)⟩)
      rcases hu I hI' with h | h
      · rw [h]
      · exact absurd e h.1
    have wrJ : ∀ (v : ℕ → K) (a : ℕ → K), put (back t n J m) (fun I => I) v a (J k + q) = v (J k + q) := by
      intro v a
      refine put_value (fun I hI' e => ?_) (Or.inr ⟨_, hI, rfl⟩)
      rw [show I = J k + q from e]
    have keep : ∀ (v : ℕ → K) (a : ℕ → K),
        put (back t n J m) (fun I => I) v a (J k + (q + 1)) = a (J k + (q + 1)) := by
      intro v a
      refine put_other fun I hI' e => ?_
      obtain ⟨k', hk', hm, rfl⟩ := mem_back.1 hI'
      have := (hposJ hk' hm hk hqn e).2
      omega
    have hf : t.forwardII (J k + q) = J k + (q + 1) := B.forwardII hk (by omega)
    have hi : t.forwardIi (J k + q) = L k + q := B.forwardIi hk (by omega)
    simp only [Bwd.at] at old
    have oX : s.X (J k + (q + 1)) = (bwdVals o g (co.slice (L k) (J k)) (n k) m).X := by rw [← old]
    have oY : s.Y (J k + (q + 1)) = (bwdVals o g (co.slice (L k) (J k)) (n k) m).Y := by rw [← old]
    have oZ : s.Z (J k + (q + 1)) = (bwdVals o g (co.slice (L k) (J k)) (n k) m).Z := by rw [← old]
    unfold Bwd.at bwdBody
    simp only [wrL, wrJ, hf, hi, keep, oX, oY, oZ]
    simp only [bwdVals, ← hq]
    rfl
  · have hjm' : j ≤ m := by omega
    rw [← D k hk j hjm' hjn]
    have nL : ∀ I ∈ back t n J m, t.forwardIi I ≠ L k + (n k - 1 - j) := by
      intro I hI e
      obtain ⟨k', hk', hm, rfl⟩ := mem_back.1 hI
      obtain ⟨rfl, h⟩ := hpos hk' hm hk (by omega) e
      omega
    have nJ : ∀ I ∈ back t n J m, I ≠ J k + (n k - 1 - j) := by
      intro I hI e
      obtain ⟨k', hk', hm, rfl⟩ := mem_back.1 hI
      obtain ⟨rfl, h⟩ := hposJ hk' hm hk (by omega) e
      omega
    unfold Bwd.at bwdBody
    simp only [put_other nL, put_other (p := fun I => I) nJ]

theorem bwdLoop_done (B : Blocks t n J L) {o : Bool} {g : K} {co : Coef K} {fuel m : ℕ} {s : Bwd K}
    (hf : ∀ k, k < t.NK → n k ≤ fuel + m + 1) (D : BwdDone t n J L o g co m s) :
    ∃ s' m', bwdLoop t g co fuel (back t n J m) s = some s' ∧ BwdDone t n J L o g co m' s' ∧
      ∀ k, k < t.NK → n k ≤ m' + 1 := by
  induction fuel generalizing m s with
  | zero =>
    have : back t n J m = [] := by
      rw [List.eq_nil_iff_forall_not_mem]
      intro I hI
      obtain ⟨k, hk, h, -⟩ := mem_back.1 hI
      have := hf k hk
      omega
    rw [this]
    exact ⟨s, m, rfl, D, fun k hk => by have := hf k hk; omega⟩
  | succ fuel ih =>
    cases hfr : back t n J m with
    | nil =>
      refine ⟨s, m, rfl, D, fun k hk => ?_⟩
      by_contra h
      have : J k + (n k - 2 - m) ∈ back t n J m := mem_back.2 ⟨k, hk, by omega, rfl⟩
      rw [hfr] at this
      exact List.not_mem_nil this
    | cons I Is =>
      show ∃ s' m', bwdLoop t g co fuel (((I :: Is).filter (fun I => !t.isStart I)).map t.backwardII)
        (bwdBody t g co (I :: Is) s) = some s' ∧ _
      rw [← hfr, back_succ B]
      exact ih (fun k hk => by have := hf k hk; omega) (bwdBody_done B D)

/-- What the backward loop leaves. -/
theorem backward_values (B : Blocks t n J L) (o : Bool) (g : K) (co : Coef K) {fuel : ℕ}
    (hf : ∀ k, k < t.NK → n k ≤ fuel + 1) (s : Bwd K) :
    ∃ s', backwardRecurrence t o g co fuel s = some s' ∧ ∀ k, k < t.NK → ∀ j, j < n k →
      Bwd.at s' (L k + j) (J k + j) = bwdVals o g (co.slice (L k) (J k)) (n k) (n k - 1 - j) := by
  have D0 : BwdDone t n J L o g co 0 (bwdInit t o g co s) := by
    intro k hk j hj _
    obtain rfl : j = 0 := by omega
    exact bwdInit_first B o g co s k hk
  obtain ⟨s1, m, e, D, hm⟩ := bwdLoop_done B (m := 0) hf D0
  refine ⟨bwdInit t o g co s1, ?_, fun k hk j hj => ?_⟩
  · unfold backwardRecurrence
    rw [back_zero B, e]; rfl
  · by_cases h : j + 1 = n k
    · have := bwdInit_first B o g co s1 k hk
      rwa [show n k - 1 = j by omega, show (0:ℕ) = n k - 1 - j by omega] at this
    · rw [bwdInit_other B o g co s1 hk (by omega)]
      have := D k hk (n k - 1 - j) (by have := hm k hk; omega) (by omega)
      rwa [show n k - 1 - (n k - 1 - j) = j by omega] at this

/-! ### Comparison with the numba class -/

/-- The coefficients of a superlink whose junction `I` stores nothing. -/
def noStorage (co : Coef K) (I : ℕ) : Coef K := { co with E := upd co.E I 0, D := upd co.D I 0 }

theorem fwdVals_o (g : K) (co : Coef K) (j : ℕ) : fwdVals true g co j = fwdVals false g (noStorage co 0) j := by
  induction j with
  | zero =>
    simp only [fwdVals, fwdStart, noStorage, upd_same, upd_other _ _ (show (1:ℕ) ≠ 0 by omega), if_true]
    simp only [Bool.false_eq_true, if_false, W_1k, V_1k, zero_mul, mul_zero]
  | succ j ih =>
    simp only [fwdVals, ih]
    simp only [noStorage, upd_other _ _ (show j + 1 ≠ 0 by omega), upd_other _ _ (show j + 2 ≠ 0 by omega)]

theorem bwdVals_o (g : K) (co : Coef K) {n m : ℕ} (hm : m < n) :
    bwdVals true g co n m = bwdVals false g (noStorage co n) n m := by
  induction m with
  | zero =>
    simp only [bwdVals, bwdStart, noStorage, upd_same, upd_other _ _ (show n - 1 ≠ n by omega), if_true]
    simp only [Bool.false_eq_true, if_false, Z_Nk, Y_Nk, zero_mul, mul_zero]
  | succ m ih =>
    simp only [bwdVals, ih (by omega)]
    simp only [noStorage, upd_other _ _ (show n - 2 - m + 1 ≠ n by omega), upd_other _ _ (show n - 2 - m ≠ n by omega)]

theorem T_ik_eq {a b c A E U g : K} (h : U - E ≠ 0) : T_ik a b c A E U g = Sweep.T_ik a b c A E U g := by
  unfold T_ik Sweep.T_ik
  simp only [if_pos h, safeDivide_of_ne _ h]

theorem O_ik_eq {a b c A E X g : K} (h : X + E ≠ 0) : O_ik a b c A E X g = Sweep.O_ik a b c A E X g := by
  unfold O_ik Sweep.O_ik
  simp only [if_pos h, safeDivide_of_ne _ h]

theorem fwdVals_eq {g : K} {co : Coef K} {n : ℕ} {T U V W : ℕ → K} (R : FwdRel g co n T U V W)
    (hU : ∀ j, j + 1 < n → U j - co.E (j+1) ≠ 0) :
    ∀ j, j < n → fwdVals false g co j = ⟨T j, U j, V j, W j⟩ := by
  intro j
  induction j with
  | zero =>
    intro _
    rw [R.U0, R.V0, R.W0, R.T0]; rfl
  | succ j ih =>
    intro hj
    rw [R.Us j hj, R.Vs j hj, R.Ws j hj, R.Ts j hj, ← T_ik_eq (hU j hj)]
    simp only [fwdVals, ih (by omega)]

theorem bwdVals_eq {g : K} {co : Coef K} {n : ℕ} {O X Y Z : ℕ → K} (R : BwdRel g co n O X Y Z)
    (hX : ∀ j, j + 1 < n → X (j+1) + co.E (j+1) ≠ 0) :
    ∀ m, m < n → bwdVals false g co n m = ⟨O (n-1-m), X (n-1-m), Y (n-1-m), Z (n-1-m)⟩ := by
  intro m
  induction m with
  | zero =>
    intro _
    rw [Nat.sub_zero, R.Xn, R.Yn, R.Zn, R.On]; rfl
  | succ m ih =>
    intro hm
    obtain ⟨q, hq⟩ : ∃ q, q = n - 2 - m := ⟨_, rfl⟩
    have h1 : n - 1 - (m + 1) = q := by omega
    have h2 : n - 1 - m = q + 1 := by omega
    have hqn : q + 1 < n := by omega
    have ih := ih (by omega)
    rw [h2] at ih
    rw [h1, R.Xs q (by omega) hqn, R.Ys q (by omega) hqn, R.Zs q (by omega) hqn, R.Os q (by omega) hqn,
      ← O_ik_eq (hX q hqn)]
    simp only [bwdVals, ih, ← hq]

/-- **C124.** On a table in which every superlink occupies consecutive rows, with coefficients that are
physical on every superlink, the two loops of the base class (any end method but `'o'`) stop, and leave
for every link of every superlink the eight coefficients which the numba class computes, whatever the arrays held
before in either class. -/
theorem C124_same_coefficients_partial (B : Blocks t n J L) (g : K) (co : Coef K)
    (ph : ∀ k, k < t.NK → Physical g (co.slice (L k) (J k)) (n k)) {fuel : ℕ}
    (hf : ∀ k, k < t.NK → n k ≤ fuel + 1) (f0 f1 : Fwd K) (b0 b1 : Bwd K) :
    ∃ f b, forwardRecurrence t false g co fuel f0 = some f ∧ backwardRecurrence t false g co fuel b0 = some b ∧
      ∀ k, k < t.NK → ∀ j, j < n k →
        (f.T (L k + j) = (sweptFwd g co t.idx f1).T (L k + j) ∧
          f.U (J k + j) = (sweptFwd g co t.idx f1).U (J k + j) ∧
          f.V (J k + j) = (sweptFwd g co t.idx f1).V (J k + j) ∧
          f.W (J k + j) = (sweptFwd g co t.idx f1).W (J k + j)) ∧
        (b.O (L k + j) = (sweptBwd g co t.idx b1).O (L k + j) ∧
          b.X (J k + j) = (sweptBwd g co t.idx b1).X (J k + j) ∧
          b.Y (J k + j) = (sweptBwd g co t.idx b1).Y (J k + j) ∧
          b.Z (J k + j) = (sweptBwd g co t.idx b1).Z (J k + j)) := by
  obtain ⟨f, ef, F⟩ := forward_values B false g co hf f0
  obtain ⟨b, eb, G⟩ := backward_values B false g co hf b0
  refine ⟨f, b, ef, eb, fun k hk j hj => ?_⟩
  have hi : t.idx.i_1k k = L k := B.i_1k hk
  have hI : t.idx.I_1k k = J k := B.start k hk
  have hn : t.idx.nk k = n k := B.nk hk
  have RF := sweptFwd_rel g co t.idx f1 B.layout (k := k) hk
  have RB := sweptBwd_rel g co t.idx b1 B.layout (k := k) hk
  rw [hi, hI, hn] at RF RB
  have pf := (physical_fwdPivots (ph k hk) RF).2
  have pb := (physical_bwdPivots (ph k hk) RB).2
  have e1 := F k hk j hj
  have e2 := G k hk j hj
  rw [fwdVals_eq RF pf j hj] at e1
  rw [bwdVals_eq RB pb (n k - 1 - j) (by omega), show n k - 1 - (n k - 1 - j) = j by omega] at e2
  simp only [Fwd.at, FV.mk.injEq] at e1
  simp only [Bwd.at, BV.mk.injEq] at e2
  exact ⟨e1, e2⟩

theorem storage_dropped_rel (B : Blocks t n J L) (g : K) (co : Coef K) {fuel : ℕ}
    (hf : ∀ k, k < t.NK → n k ≤ fuel + 1) (f0 : Fwd K) (b0 : Bwd K) :
    ∃ f b, forwardRecurrence t true g co fuel f0 = some f ∧ backwardRecurrence t true g co fuel b0 = some b ∧
      ∀ k, k < t.NK → ∀ j, j < n k →
        (∀ {T U V W : ℕ → K}, FwdRel g (noStorage (co.slice (L k) (J k)) 0) (n k) T U V W →
          (∀ j, j + 1 < n k → U j - co.E (J k + (j + 1)) ≠ 0) →
          f.T (L k + j) = T j ∧ f.U (J k + j) = U j ∧ f.V (J k + j) = V j ∧ f.W (J k + j) = W j) ∧
        (∀ {O X Y Z : ℕ → K}, BwdRel g (noStorage (co.slice (L k) (J k)) (n k)) (n k) O X Y Z →
          (∀ j, j + 1 < n k → X (j + 1) + co.E (J k + (j + 1)) ≠ 0) →
          b.O (L k + j) = O j ∧ b.X (J k + j) = X j ∧ b.Y (J k + j) = Y j ∧ b.Z (J k + j) = Z j) := by
  obtain ⟨f, ef, F⟩ := forward_values B true g co hf f0
  obtain ⟨b, eb, G⟩ := backward_values B true g co hf b0
  refine ⟨f, b, ef, eb, fun k hk j hj => ⟨fun {T U V W} R hU => ?_, fun {O X Y Z} R hX => ?_⟩⟩
  · have e := F k hk j hj
    rw [fwdVals_o, fwdVals_eq R (fun j hj => ?_) j hj] at e
    · simpa only [Fwd.at, FV.mk.injEq] using e
    · simp only [noStorage, upd_other _ _ (show j + 1 ≠ 0 by omega)]
      exact hU j hj
  · have e := G k hk j hj
    rw [bwdVals_o _ _ (by omega), bwdVals_eq R (fun j hj => ?_) _ (by omega),
      show n k - 1 - (n k - 1 - j) = j by omega] at e
    · simpa only [Bwd.at, BV.mk.injEq] using e
    · simp only [noStorage, upd_other _ _ (show j + 1 ≠ n k by omega)]
      exact hX j hj

theorem noStorage_physical {g : K} {co : Coef K} {n : ℕ} (ph : Physical g co n) (I : ℕ) :
    Physical g (noStorage co I) n where
  g_pos := ph.g_pos
  A_pos := ph.A_pos
  a_nonpos := ph.a_nonpos
  c_nonpos := ph.c_nonpos
  abc_pos := ph.abc_pos
  E_nonneg j hj := by
    show 0 ≤ upd co.E I 0 j
    by_cases h : j = I
    · rw [h, upd_same]
    · rw [upd_other _ _ h]; exact ph.E_nonneg j hj

theorem slice_zero (co : Coef K) : co.slice 0 0 = co := by
  simp only [Coef.slice, zero_add]

/-- **C124.** What end method `'o'` changes: for every superlink the forward relations left by the base class are
those of the equations in which the *first* junction stores nothing, the backward relations are those of the equations
in which the *last* junction stores nothing (every other junction keeps its storage in both): whatever
flows and depths satisfy those equations satisfy them at every link. -/
theorem C124_storage_dropped (B : Blocks t n J L) (g : K) (co : Coef K)
    (ph : ∀ k, k < t.NK → Physical g (co.slice (L k) (J k)) (n k)) {fuel : ℕ}
    (hf : ∀ k, k < t.NK → n k ≤ fuel + 1) (f0 : Fwd K) (b0 : Bwd K) :
    ∃ f b, forwardRecurrence t true g co fuel f0 = some f ∧ backwardRecurrence t true g co fuel b0 = some b ∧
      ∀ k, k < t.NK → ∀ (Q h : ℕ → K) (Qu Qd : K),
        (SaintVenant g (noStorage (co.slice (L k) (J k)) 0) (n k) Q h Qu Qd →
          ∀ j, j < n k → Q j = f.U (J k + j) * h (j + 1) + f.V (J k + j) + f.W (J k + j) * h 0) ∧
        (SaintVenant g (noStorage (co.slice (L k) (J k)) (n k)) (n k) Q h Qu Qd →
          ∀ j, j < n k → Q j = b.X (J k + j) * h j + b.Y (J k + j) + b.Z (J k + j) * h (n k)) := by
  obtain ⟨f, b, ef, eb, H⟩ := storage_dropped_rel B g co hf f0 b0
  refine ⟨f, b, ef, eb, fun k hk Q h Qu Qd => ⟨fun S j hj => ?_, fun S j hj => ?_⟩⟩
  · have R := (Sweep.fwdSuperlink_spec g (noStorage (co.slice (L k) (J k)) 0) (n k) 0 0 (B.pos k hk) f0).1
    rw [slice_zero] at R
    have pv := physical_fwdPivots (noStorage_physical (ph k hk) 0) R
    obtain ⟨-, e1, e2, e3⟩ := (H k hk j hj).1 R (fun j hj => by
      have := pv.2 j hj
      simp only [noStorage, upd_other _ _ (show j + 1 ≠ 0 by omega)] at this
      exact this)
    rw [e1, e2, e3]
    exact fwd_sound R pv S j hj
  · have R := (Sweep.bwdSuperlink_spec g (noStorage (co.slice (L k) (J k)) (n k)) (n k) 0 0 (B.pos k hk) b0).1
    rw [slice_zero] at R
    have pv := physical_bwdPivots (noStorage_physical (ph k hk) (n k)) R
    obtain ⟨-, e1, e2, e3⟩ := (H k hk j hj).2 R (fun j hj => by
      have := pv.2 j hj
      simp only [noStorage, upd_other _ _ (show j + 1 ≠ n k by omega)] at this
      exact this)
    rw [e1, e2, e3]
    exact bwd_sound R pv S j hj

/-- **C124.** With end method `'o'` the two sweeps of a superlink with one link describe different flows: at the end
depths `h0`, `h1` the forward relation and the backward relation give the same flow exactly if the storage terms
they dropped balance. With any other end method they always give the same flow. -/
theorem C124_two_flows_iff (g : K) (co : Coef K) (h0 h1 : K) (hT : co.a 0 + co.b 0 + co.c 0 ≠ 0) :
    ((fwdVals true g co 0).U * h1 + (fwdVals true g co 0).V + (fwdVals true g co 0).W * h0
        = (bwdVals true g co 1 0).X * h0 + (bwdVals true g co 1 0).Y + (bwdVals true g co 1 0).Z * h1 ↔
      co.a 0 * (co.E 0 * h0 - co.D 0) + co.c 0 * (co.E 1 * h1 - co.D 1) = 0) ∧
    (fwdVals false g co 0).U * h1 + (fwdVals false g co 0).V + (fwdVals false g co 0).W * h0
        = (bwdVals false g co 1 0).X * h0 + (bwdVals false g co 1 0).Y + (bwdVals false g co 1 0).Z * h1 := by
  simp only [fwdVals, fwdStart, bwdVals, bwdStart, if_true, Bool.false_eq_true, if_false, T_1k, O_nk, U_1k, V_1k, W_1k,
    X_Nk, Y_Nk, Z_Nk, safeDivide_of_ne _ hT, Nat.sub_self]
  constructor
  · rw [← sub_eq_zero]
    have : (co.E 1 * co.c 0 - g * co.A 0) / (co.a 0 + co.b 0 + co.c 0) * h1 +
          (co.P 0 - co.D 1 * co.c 0 + 0 * 0) / (co.a 0 + co.b 0 + co.c 0) +
        (g * co.A 0 - 0 * 0) / (co.a 0 + co.b 0 + co.c 0) * h0 -
      ((g * co.A 0 - co.E 0 * co.a 0) / (co.a 0 + co.b 0 + co.c 0) * h0 +
          (co.P 0 + co.D 0 * co.a 0 - 0 * 0) / (co.a 0 + co.b 0 + co.c 0) +
        (0 * 0 - g * co.A 0) / (co.a 0 + co.b 0 + co.c 0) * h1) =
      (co.a 0 * (co.E 0 * h0 - co.D 0) + co.c 0 * (co.E 1 * h1 - co.D 1)) / (co.a 0 + co.b 0 + co.c 0) := by
      ring
    rw [this, div_eq_zero_iff, or_iff_left hT]
  · ring

/-- **C124.** Where the divisor `U_{I-1} - E_I` vanishes the base class gives the link no flow at any depths, the
numba class raises `ZeroDivisionError`. -/
theorem C124_vanishing_divisor (o : Bool) (g : K) (co : Coef K) (j : ℕ)
    (h : (fwdVals o g co j).U - co.E (j + 1) = 0) (P a D D' c A V T : K) :
    fwdVals o g co (j + 1) = ⟨0, 0, 0, 0⟩ ∧
      numbaV P a D D' c A (co.E (j + 1)) V (fwdVals o g co j).U T g = .error .zeroDivision := by
  constructor
  · simp only [fwdVals, T_ik, h, ne_eq, not_true_eq_false, if_false, U_Ik, V_Ik, W_Ik, safeDivide, mul_zero, if_true]
  · exact if_pos h

/-! ### Non-vacuity -/

theorem exCo_physical (I i n : ℕ) : Physical (10 : ℚ) (exCo.slice i I) n := by
  refine ⟨by norm_num, ?_, ?_, ?_, ?_, ?_⟩ <;> intros <;> norm_num [exCo, Coef.slice]

/-- Two superlinks of one and two links: one round of each loop. -/
example (f0 : Fwd ℚ) (b0 : Bwd ℚ) : ∃ f b, forwardRecurrence Lsq.mixed false (10 : ℚ) exCo 1 f0 = some f ∧
    backwardRecurrence Lsq.mixed false 10 exCo 1 b0 = some b := by
  have h2 : Lsq.mixed.NK = 2 := rfl
  obtain ⟨f, b, h, h', -⟩ := C124_same_coefficients_partial Lsq.mixed_ordered.toBlocks 10 exCo (fun k _ => exCo_physical _ _ _)
    (fuel := 1) (fun k hk => by rw [h2] at hk; show k + 1 ≤ 1 + 1; omega) f0 f0 b0 b0
  exact ⟨f, b, h, h'⟩

/-- **C124, the witness.** With physical coefficients and end method `'o'` the two sweeps give the flows 19/3 and 22/3
through the same link at the same end depths. -/
theorem C124_witness :
    Physical (10 : ℚ) ⟨fun _ => -1, fun _ => 5, fun _ => -1, fun _ => 0, fun _ => 2, fun _ => 1, fun _ => 0⟩ 1 ∧
    let co : Coef ℚ := ⟨fun _ => -1, fun _ => 5, fun _ => -1, fun _ => 0, fun _ => 2, fun _ => 1, fun _ => 0⟩
    (fwdVals true 10 co 0).U * 1 + (fwdVals true 10 co 0).V + (fwdVals true 10 co 0).W * 2 = 19 / 3 ∧
    (bwdVals true 10 co 1 0).X * 2 + (bwdVals true 10 co 1 0).Y + (bwdVals true 10 co 1 0).Z * 1 = 22 / 3 := by
  refine ⟨⟨by norm_num, ?_, ?_, ?_, ?_, ?_⟩, ?_⟩
  all_goals (intros; norm_num)
  simp only [fwdVals, fwdStart, bwdVals, bwdStart, if_true, T_1k, O_nk, U_1k, V_1k, W_1k, X_Nk, Y_Nk, Z_Nk, safeDivide]
  norm_num

/-- A vanishing divisor: a dry link without width upstream. -/
example : (fwdVals false (10 : ℚ) ⟨fun _ => 0, fun _ => 5, fun _ => 0, fun _ => 0, fun _ => 0, fun _ => 0, fun _ => 0⟩ 0).U
    - 0 = 0 := by
  norm_num [fwdVals, fwdStart, U_1k, safeDivide]

end Pipedream.Base
