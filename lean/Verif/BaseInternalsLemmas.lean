import Verif.BaseInternalsModel
import Verif.BaseSweepProps
import Verif.InternalsLemmas

/-!
# Lemmas about the internal solve of the base class

Both loops stop; what they leave in every superlink is described by `FRel` and `BRel`.
-/

set_option linter.unusedSectionVars false

namespace Pipedream.Base

open Pipedream.Sweep Pipedream.Topology

variable {K : Type*} [Field K] [LinearOrder K] [IsStrictOrderedRing K]

/-! ### Writing whole arrays -/

theorem putAt_value {α : Type*} {es : List α} {p : α → ℕ} {v : α → K} {a : ℕ → K} {x : ℕ} {w : K}
    (h : ∀ e ∈ es, p e = x → v e = w) (h2 : a x = w ∨ ∃ e ∈ es, p e = x) : putAt es p v a x = w := by
  unfold putAt
  induction es generalizing a with
  | nil =>
    rcases h2 with h2 | ⟨e, he, -⟩
    · exact h2
    · exact absurd he List.not_mem_nil
  | cons d es ih =>
    rw [List.foldl_cons]
    refine ih (fun e he => h e (List.mem_cons_of_mem _ he)) ?_
    by_cases c : p d = x
    · left
      rw [← c, upd_same]
      exact h d (List.mem_cons_self ..) c
    · rcases h2 with h2 | ⟨e, he, c2⟩
      · left
        rw [upd_other _ _ (Ne.symm c), h2]
      · rcases List.mem_cons.mp he with rfl | he
        · exact absurd c2 c
        · exact Or.inr ⟨e, he, c2⟩

theorem putAt_other {α : Type*} {es : List α} {p : α → ℕ} {v : α → K} {a : ℕ → K} {x : ℕ} (h : ∀ e ∈ es, p e ≠ x) :
    putAt es p v a x = a x := putAt_value (fun e he c => absurd c (h e he)) (Or.inl rfl)

/-- `max` with `min_depth`, as written in the code. -/
def lift (mn h : K) : K := if h < mn then mn else h

theorem raise_value {mn : K} {es : List Ent} {v : Ent → K} {h : ℕ → K} {e : Ent} (he : e ∈ es)
    (uniq : ∀ e' ∈ es, e'.I = e.I → e' = e) : raise mn es (putAt es (fun e => e.I) v h) e.I = lift mn (v e) := by
  have w : putAt es (fun e => e.I) v h e.I = v e :=
    putAt_value (fun e' h' c => by rw [uniq e' h' c]) (Or.inr ⟨e, he, rfl⟩)
  unfold raise lift
  by_cases c : v e < mn
  · rw [if_pos c]
    exact putAt_value (fun _ _ _ => rfl) (Or.inr ⟨e, List.mem_filter.2 ⟨he, by simpa [w] using c⟩, rfl⟩)
  · rw [if_neg c]
    refine (putAt_other fun e' h' c' => ?_).trans w
    obtain ⟨m1, m2⟩ := List.mem_filter.1 h'
    rw [uniq e' m1 c'] at m2
    exact c (by simpa [w] using m2)

theorem raise_other {mn : K} {es : List Ent} {v : Ent → K} {h : ℕ → K} {x : ℕ} (hx : ∀ e ∈ es, e.I ≠ x) :
    raise mn es (putAt es (fun e => e.I) v h) x = h x := by
  unfold raise
  rw [putAt_other (fun e he => hx e (List.mem_filter.1 he).1), putAt_other hx]

variable {t : Tables} {n J L : ℕ → ℕ}

/-- The two ends of every superlink are set; of a superlink of one link the second assignment stays. -/
theorem setEnds_spec (B : Blocks t n J L) (x : Ends K) (q1 qn : ℕ → K) (s : HQ K) {k : ℕ} (hk : k < t.NK) :
    (setEnds t x q1 qn s).h (J k) = x.hu k ∧ (setEnds t x q1 qn s).h (J k + n k) = x.hd k ∧
    (setEnds t x q1 qn s).Q (L k + (n k - 1)) = qn k ∧ (2 ≤ n k → (setEnds t x q1 qn s).Q (L k) = q1 k) ∧
    (∀ j, 1 ≤ j → j < n k → (setEnds t x q1 qn s).h (J k + j) = s.h (J k + j)) ∧
    (∀ j, 1 ≤ j → j + 1 < n k → (setEnds t x q1 qn s).Q (L k + j) = s.Q (L k + j)) := by
  have hp := B.pos k hk
  have fE : ∀ k' ∈ List.range t.NK, ∀ j, j ≤ n k → t.fin k' = J k + j → k' = k ∧ j = n k := by
    intro k' h' j hj e
    have h' := List.mem_range.1 h'
    rw [B.fin k' h'] at e
    obtain ⟨e1, e2⟩ := B.junc_inj h' hk (le_refl _) hj e
    exact ⟨e1, by rw [← e2, e1]⟩
  have fS : ∀ k' ∈ List.range t.NK, ∀ j, j ≤ n k → t.start k' = J k + j → k' = k ∧ j = 0 := by
    intro k' h' j hj e
    have h' := List.mem_range.1 h'
    rw [B.start k' h'] at e
    obtain ⟨e1, e2⟩ := B.junc_inj (j := 0) h' hk (Nat.zero_le _) hj e
    exact ⟨e1, e2.symm⟩
  have fn : ∀ k' ∈ List.range t.NK, ∀ j, j < n k → t.i_nk k' = L k + j → k' = k ∧ j = n k - 1 := by
    intro k' h' j hj e
    have h' := List.mem_range.1 h'
    rw [i_nk_eq B h'] at e
    obtain ⟨e1, e2⟩ := B.link_inj h' hk (by have := B.pos k' h'; omega) hj e
    exact ⟨e1, by rw [← e2, e1]⟩
  have f1 : ∀ k' ∈ List.range t.NK, ∀ j, j < n k → t.i_1k k' = L k + j → k' = k ∧ j = 0 := by
    intro k' h' j hj e
    have h' := List.mem_range.1 h'
    rw [B.i_1k h'] at e
    obtain ⟨e1, e2⟩ := B.link_inj (j := 0) h' hk (B.pos k' h') hj e
    exact ⟨e1, e2.symm⟩
  have mk : k ∈ List.range t.NK := List.mem_range.2 hk
  refine ⟨?_, ?_, ?_, fun h2 => ?_, fun j h1 h2 => ?_, fun j h1 h2 => ?_⟩
  · refine (putAt_other fun k' h' e => ?_).trans (putAt_value (fun k' h' e => ?_) (Or.inr ⟨k, mk, B.start k hk⟩))
    · have := (fE k' h' 0 (Nat.zero_le _) e).2; omega
    · rw [(fS k' h' 0 (Nat.zero_le _) e).1]
  · refine putAt_value (fun k' h' e => ?_) (Or.inr ⟨k, mk, B.fin k hk⟩)
    rw [(fE k' h' _ (le_refl _) e).1]
  · refine putAt_value (fun k' h' e => ?_) (Or.inr ⟨k, mk, i_nk_eq B hk⟩)
    rw [(fn k' h' _ (by omega) e).1]
  · refine (putAt_other fun k' h' e => ?_).trans (putAt_value (fun k' h' e => ?_) (Or.inr ⟨k, mk, B.i_1k hk⟩))
    · have := (fn k' h' 0 (by omega) e).2; omega
    · rw [(f1 k' h' 0 (by omega) e).1]
  · refine (putAt_other fun k' h' e => ?_).trans (putAt_other fun k' h' e => ?_)
    · have := (fE k' h' j h2.le e).2; omega
    · have := (fS k' h' j h2.le e).2; omega
  · refine (putAt_other fun k' h' e => ?_).trans (putAt_other fun k' h' e => ?_)
    · have := (fn k' h' j (by omega) e).2; omega
    · have := (f1 k' h' j (by omega) e).2; omega

/-! ### Forwards -/

/-- The arrays of `solve_internals_forwards` after `m` rounds. -/
def frontF (t : Tables) (n J : ℕ → ℕ) (sel : ℕ → Bool) (m : ℕ) : List Ent :=
  ((List.range t.NK).filter (fun k => sel (J k + 1) && decide (m + 1 < n k))).map
    (fun k => ⟨J k + m, J k + (m + 1), J k, J k + n k⟩)

theorem mem_frontF {sel : ℕ → Bool} {m : ℕ} {e : Ent} : e ∈ frontF t n J sel m ↔
    ∃ k, k < t.NK ∧ sel (J k + 1) = true ∧ m + 1 < n k ∧ e = ⟨J k + m, J k + (m + 1), J k, J k + n k⟩ := by
  unfold frontF
  simp only [List.mem_map, List.mem_filter, List.mem_range, Bool.and_eq_true, decide_eq_true_eq]
  constructor
  · rintro ⟨k, ⟨h1, h2, h3⟩, rfl⟩; exact ⟨k, h1, h2, h3, rfl⟩
  · rintro ⟨k, h1, h2, h3, rfl⟩; exact ⟨k, ⟨h1, h2, h3⟩, rfl⟩

theorem frontF_zero (B : Blocks t n J L) (sel : ℕ → Bool) : intFwdStart t sel = frontF t n J sel 0 := by
  unfold intFwdStart frontF
  have e : (List.range t.NK).map (fun k => (⟨t.start k, t.I_2k k, t.start k, t.fin k⟩ : Ent))
      = (List.range t.NK).map (fun k => ⟨J k + 0, J k + (0 + 1), J k, J k + n k⟩) := by
    refine List.map_congr_left fun k hk => ?_
    have hk := List.mem_range.1 hk
    rw [B.start k hk, B.I_2k hk, B.fin k hk]; rfl
  rw [e, List.filter_map, List.filter_map, List.filter_filter]
  congr 1
  refine List.filter_congr fun k hk => ?_
  have hp := B.pos k (List.mem_range.1 hk)
  rw [Bool.eq_iff_iff]
  simp only [Function.comp_apply, Bool.and_eq_true, decide_eq_true_eq]
  constructor
  · rintro ⟨h1, h2⟩; exact ⟨h1, by omega⟩
  · rintro ⟨h1, h2⟩; exact ⟨h1, by omega⟩

theorem frontF_succ (B : Blocks t n J L) (sel : ℕ → Bool) (m : ℕ) :
    intFwdNext t (frontF t n J sel m) = frontF t n J sel (m + 1) := by
  unfold intFwdNext frontF
  rw [List.map_map]
  have e : ((List.range t.NK).filter (fun k => sel (J k + 1) && decide (m + 1 < n k))).map
        ((fun e : Ent => (⟨e.I, t.forwardII e.I, e.I1, e.IE⟩ : Ent)) ∘
          fun k => ⟨J k + m, J k + (m + 1), J k, J k + n k⟩)
      = ((List.range t.NK).filter (fun k => sel (J k + 1) && decide (m + 1 < n k))).map
        (fun k => ⟨J k + (m + 1), J k + (m + 1 + 1), J k, J k + n k⟩) := by
    refine List.map_congr_left fun k hk => ?_
    obtain ⟨h1, h2⟩ := List.mem_filter.1 hk
    rw [Bool.and_eq_true, decide_eq_true_eq] at h2
    simp only [Function.comp_apply]
    rw [B.forwardII (List.mem_range.1 h1) h2.2]; rfl
  rw [e, List.filter_map, List.filter_filter]
  congr 1
  refine List.filter_congr fun k hk => ?_
  rw [Bool.eq_iff_iff]
  simp only [Function.comp_apply, Bool.and_eq_true, decide_eq_true_eq]
  constructor
  · rintro ⟨h1, h2, h3⟩; exact ⟨h2, by omega⟩
  · rintro ⟨h1, h2⟩; exact ⟨by omega, h1, by omega⟩

/-- What the forward loop has done after `m` rounds. -/
structure FDone (t : Tables) (n J L : ℕ → ℕ) (f : Fwd K) (bw : Bwd K) (x : Ends K) (sel : ℕ → Bool) (q1 : ℕ → K)
    (s0 : HQ K) (m : ℕ) (s : HQ K) : Prop where
  h0 : ∀ k, k < t.NK → s.h (J k) = x.hu k
  hn : ∀ k, k < t.NK → s.h (J k + n k) = x.hd k
  Q0 : ∀ k, k < t.NK → 2 ≤ n k → s.Q (L k) = q1 k
  hs : ∀ k, k < t.NK → sel (J k + 1) = true → ∀ j, j < m → j + 1 < n k → s.h (J k + (j + 1))
    = lift x.mn (safeDivide (s.Q (L k + j) - f.V (J k + j) - f.W (J k + j) * x.hu k) (f.U (J k + j)))
  Qs : ∀ k, k < t.NK → sel (J k + 1) = true → ∀ j, j < m → j + 1 < n k → s.Q (L k + (j + 1))
    = bw.X (J k + (j + 1)) * s.h (J k + (j + 1)) + bw.Y (J k + (j + 1)) + bw.Z (J k + (j + 1)) * x.hd k
  ho : ∀ k, k < t.NK → sel (J k + 1) = false → ∀ j, 1 ≤ j → j < n k → s.h (J k + j) = s0.h (J k + j)
  Qo : ∀ k, k < t.NK → sel (J k + 1) = false → ∀ j, 1 ≤ j → j + 1 < n k → s.Q (L k + j) = s0.Q (L k + j)

theorem intFwdBody_done (B : Blocks t n J L) {f : Fwd K} {bw : Bwd K} {x : Ends K} {sel : ℕ → Bool} {q1 : ℕ → K}
    {s0 s : HQ K} {m : ℕ} (D : FDone t n J L f bw x sel q1 s0 m s) :
    FDone t n J L f bw x sel q1 s0 (m + 1) (intFwdBody t f bw x.mn (frontF t n J sel m) s) := by
  -- an entry that writes junction or link `j` of superlink `k` is the one of `k`, and `j = m + 1`
  have hJ : ∀ e ∈ frontF t n J sel m, ∀ k, k < t.NK → ∀ j, j ≤ n k → e.I = J k + j →
      j = m + 1 ∧ sel (J k + 1) = true ∧ e = ⟨J k + m, J k + (m + 1), J k, J k + n k⟩ := by
    intro e he k hk j hj c
    obtain ⟨k', hk', hs, hm, rfl⟩ := mem_frontF.1 he
    obtain ⟨rfl, e2⟩ := B.junc_inj hk' hk hm.le hj c
    exact ⟨e2.symm, hs, rfl⟩
  have hL : ∀ e ∈ frontF t n J sel m, ∀ k, k < t.NK → ∀ j, j < n k → t.forwardIi e.I = L k + j →
      j = m + 1 ∧ sel (J k + 1) = true ∧ e = ⟨J k + m, J k + (m + 1), J k, J k + n k⟩ := by
    intro e he k hk j hj c
    obtain ⟨k', hk', hs, hm, rfl⟩ := mem_frontF.1 he
    rw [B.forwardIi hk' hm] at c
    obtain ⟨rfl, e2⟩ := B.link_inj hk' hk hm hj c
    exact ⟨e2.symm, hs, rfl⟩
  -- what is kept
  have keepJ : ∀ k, k < t.NK → ∀ j, j ≤ n k → (j ≠ m + 1 ∨ j = n k ∨ sel (J k + 1) = false) →
      (intFwdBody t f bw x.mn (frontF t n J sel m) s).h (J k + j) = s.h (J k + j) := by
    intro k hk j hj hne
    refine raise_other fun e he c => ?_
    obtain ⟨a, b, -⟩ := hJ e he k hk j hj c
    rcases hne with h | h | h
    · exact h a
    · obtain ⟨k', hk', -, hm, rfl⟩ := mem_frontF.1 he
      obtain ⟨rfl, e2⟩ := B.junc_inj hk' hk hm.le hj c
      omega
    · rw [h] at b; exact Bool.noConfusion b
  have keepL : ∀ k, k < t.NK → ∀ j, j < n k → (j ≠ m + 1 ∨ sel (J k + 1) = false) →
      (intFwdBody t f bw x.mn (frontF t n J sel m) s).Q (L k + j) = s.Q (L k + j) := by
    intro k hk j hj hne
    refine putAt_other fun e he c => ?_
    obtain ⟨a, b, -⟩ := hL e he k hk j hj c
    rcases hne with h | h
    · exact h a
    · rw [h] at b; exact Bool.noConfusion b
  -- what is written
  have newJ : ∀ k, k < t.NK → sel (J k + 1) = true → m + 1 < n k →
      (intFwdBody t f bw x.mn (frontF t n J sel m) s).h (J k + (m + 1))
        = lift x.mn (safeDivide (s.Q (L k + m) - f.V (J k + m) - f.W (J k + m) * x.hu k) (f.U (J k + m))) := by
    intro k hk hs hm
    have he : (⟨J k + m, J k + (m + 1), J k, J k + n k⟩ : Ent) ∈ frontF t n J sel m :=
      mem_frontF.2 ⟨k, hk, hs, hm, rfl⟩
    refine (raise_value he fun e' h' c => (hJ e' h' k hk (m + 1) hm.le c).2.2).trans ?_
    rw [B.forwardIi hk (show m < n k by omega), D.h0 k hk]
  have newL : ∀ k, k < t.NK → sel (J k + 1) = true → m + 1 < n k →
      (intFwdBody t f bw x.mn (frontF t n J sel m) s).Q (L k + (m + 1))
        = bw.X (J k + (m + 1)) * (intFwdBody t f bw x.mn (frontF t n J sel m) s).h (J k + (m + 1))
          + bw.Y (J k + (m + 1)) + bw.Z (J k + (m + 1)) * x.hd k := by
    intro k hk hs hm
    have he : (⟨J k + m, J k + (m + 1), J k, J k + n k⟩ : Ent) ∈ frontF t n J sel m :=
      mem_frontF.2 ⟨k, hk, hs, hm, rfl⟩
    refine putAt_value (fun e' h' c => ?_) (Or.inr ⟨_, he, B.forwardIi hk hm⟩)
    rw [(hL e' h' k hk (m + 1) hm c).2.2]
    have := keepJ k hk (n k) (le_refl _) (Or.inr (Or.inl rfl))
    rw [D.hn k hk] at this
    rw [← this]; rfl
  refine ⟨?_, ?_, ?_, ?_, ?_, ?_, ?_⟩
  · intro k hk
    exact (keepJ k hk 0 (Nat.zero_le _) (Or.inl (by omega))).trans (D.h0 k hk)
  · intro k hk
    exact (keepJ k hk (n k) (le_refl _) (Or.inr (Or.inl rfl))).trans (D.hn k hk)
  · intro k hk h2
    exact (keepL k hk 0 (by omega) (Or.inl (by omega))).trans (D.Q0 k hk h2)
  · intro k hk hs j hj hjn
    rcases Nat.lt_succ_iff_lt_or_eq.1 hj with h | rfl
    · rw [keepJ k hk (j + 1) hjn.le (Or.inl (by omega)), keepL k hk j (by omega) (Or.inl (by omega))]
      exact D.hs k hk hs j h hjn
    · rw [newJ k hk hs hjn, keepL k hk j (by omega) (Or.inl (by omega))]
  · intro k hk hs j hj hjn
    rcases Nat.lt_succ_iff_lt_or_eq.1 hj with h | rfl
    · rw [keepJ k hk (j + 1) hjn.le (Or.inl (by omega)), keepL k hk (j + 1) hjn (Or.inl (by omega))]
      exact D.Qs k hk hs j h hjn
    · exact newL k hk hs hjn
  · intro k hk hs j h1 hjn
    exact (keepJ k hk j hjn.le (Or.inr (Or.inr hs))).trans (D.ho k hk hs j h1 hjn)
  · intro k hk hs j h1 hjn
    exact (keepL k hk j (by omega) (Or.inr hs)).trans (D.Qo k hk hs j h1 hjn)

theorem intFwdLoop_done (B : Blocks t n J L) {f : Fwd K} {bw : Bwd K} {x : Ends K} {sel : ℕ → Bool} {q1 : ℕ → K}
    {s0 s : HQ K} {fuel m : ℕ} (hf : ∀ k, k < t.NK → n k ≤ fuel + m + 1)
    (D : FDone t n J L f bw x sel q1 s0 m s) :
    ∃ s' m', intFwdLoop t f bw x.mn fuel (frontF t n J sel m) s = some s' ∧ FDone t n J L f bw x sel q1 s0 m' s' ∧
      ∀ k, k < t.NK → sel (J k + 1) = true → n k ≤ m' + 1 := by
  induction fuel generalizing m s with
  | zero =>
    have : frontF t n J sel m = [] := by
      rw [List.eq_nil_iff_forall_not_mem]
      intro e he
      obtain ⟨k, hk, -, h, -⟩ := mem_frontF.1 he
      have := hf k hk
      omega
    rw [this]
    exact ⟨s, m, rfl, D, fun k hk _ => by have := hf k hk; omega⟩
  | succ fuel ih =>
    cases hfr : frontF t n J sel m with
    | nil =>
      refine ⟨s, m, rfl, D, fun k hk hs => ?_⟩
      by_contra h
      have := mem_frontF.2 ⟨k, hk, hs, show m + 1 < n k by omega, rfl⟩
      rw [hfr] at this
      exact List.not_mem_nil this
    | cons e es =>
      show ∃ s' m', intFwdLoop t f bw x.mn fuel (intFwdNext t (e :: es)) (intFwdBody t f bw x.mn (e :: es) s) = some s' ∧ _
      rw [← hfr, frontF_succ B]
      exact ih (fun k hk => by have := hf k hk; omega) (intFwdBody_done B D)

/-- What the forward march leaves in a superlink (local numbering, `n` links). -/
structure FRel (U V W X Y Z : ℕ → K) (mn hu hd q1 qn : K) (n : ℕ) (h Q : ℕ → K) : Prop where
  h0 : h 0 = hu
  hn : h n = hd
  Q0 : 2 ≤ n → Q 0 = q1
  Qn : Q (n - 1) = qn
  hs : ∀ j, j + 1 < n → h (j + 1) = lift mn (safeDivide (Q j - V j - W j * hu) (U j))
  Qs : ∀ j, 1 ≤ j → j + 1 < n → Q j = X j * h j + Y j + Z j * hd

/-- The forward loop stops, and leaves in every selected superlink the march from its upper end; the others
get new ends and are otherwise untouched. -/
theorem forwards_rel (B : Blocks t n J L) (f : Fwd K) (bw : Bwd K) (x : Ends K) (sel : ℕ → Bool) {fuel : ℕ}
    (hf : ∀ k, k < t.NK → n k ≤ fuel + 1) (s : HQ K) :
    ∃ s', marchForwards t f bw x sel fuel s = some s' ∧ ∀ k, k < t.NK →
      (sel (J k + 1) = true → FRel (fun j => f.U (J k + j)) (fun j => f.V (J k + j)) (fun j => f.W (J k + j))
        (fun j => bw.X (J k + j)) (fun j => bw.Y (J k + j)) (fun j => bw.Z (J k + j)) x.mn (x.hu k) (x.hd k)
        (firstF t x k) (lastF t x k) (n k) (fun j => s'.h (J k + j)) (fun j => s'.Q (L k + j))) ∧
      (sel (J k + 1) = false → (∀ j, 1 ≤ j → j < n k → s'.h (J k + j) = s.h (J k + j)) ∧
        ∀ j, 1 ≤ j → j + 1 < n k → s'.Q (L k + j) = s.Q (L k + j)) := by
  have D0 : FDone t n J L f bw x sel (firstF t x) s 0 (setEnds t x (firstF t x) (lastF t x) s) := by
    refine ⟨?_, ?_, ?_, ?_, ?_, ?_, ?_⟩
    · intro k hk; exact (setEnds_spec B x _ _ s hk).1
    · intro k hk; exact (setEnds_spec B x _ _ s hk).2.1
    · intro k hk h2; exact (setEnds_spec B x _ _ s hk).2.2.2.1 h2
    · intro k hk _ j hj; exact absurd hj (Nat.not_lt_zero _)
    · intro k hk _ j hj; exact absurd hj (Nat.not_lt_zero _)
    · intro k hk _ j h1 h2; exact (setEnds_spec B x _ _ s hk).2.2.2.2.1 j h1 h2
    · intro k hk _ j h1 h2; exact (setEnds_spec B x _ _ s hk).2.2.2.2.2 j h1 h2
  obtain ⟨s1, m, e, D, hm⟩ := intFwdLoop_done B (m := 0) hf D0
  refine ⟨setEnds t x (firstF t x) (lastF t x) s1, ?_, fun k hk => ?_⟩
  · unfold marchForwards
    rw [frontF_zero B, e]; rfl
  obtain ⟨a0, an, qn, q1, aj, qj⟩ := setEnds_spec B x (firstF t x) (lastF t x) s1 hk
  refine ⟨fun hs => ⟨a0, an, q1, qn, ?_, ?_⟩, fun hs => ⟨?_, ?_⟩⟩
  · intro j hj
    have hQ : (setEnds t x (firstF t x) (lastF t x) s1).Q (L k + j) = s1.Q (L k + j) := by
      rcases Nat.eq_zero_or_pos j with rfl | h
      · exact (q1 (by omega)).trans (D.Q0 k hk (by omega)).symm
      · exact qj j h hj
    show (setEnds t x (firstF t x) (lastF t x) s1).h (J k + (j + 1)) = _
    rw [aj (j + 1) (by omega) hj, hQ]
    exact D.hs k hk hs j (by have := hm k hk hs; omega) hj
  · intro j h1 hj
    obtain ⟨i, rfl⟩ : ∃ i, j = i + 1 := ⟨j - 1, by omega⟩
    show (setEnds t x (firstF t x) (lastF t x) s1).Q (L k + (i + 1)) = _
    rw [qj (i + 1) h1 hj, aj (i + 1) h1 (by omega)]
    exact D.Qs k hk hs i (by have := hm k hk hs; omega) (by omega)
  · intro j h1 h2
    exact (aj j h1 h2).trans (D.ho k hk hs j h1 h2)
  · intro j h1 h2
    exact (qj j h1 h2).trans (D.Qo k hk hs j h1 h2)

/-! ### Backwards -/

/-- The arrays of `solve_internals_backwards` after `m` rounds. -/
def frontB (t : Tables) (n J : ℕ → ℕ) (sel : ℕ → Bool) (m : ℕ) : List Ent :=
  ((List.range t.NK).filter (fun k => sel (J k + (n k - 1)) && decide (m + 1 < n k))).map
    (fun k => ⟨J k, J k + (n k - 1 - m), J k, J k + n k⟩)

theorem mem_frontB {sel : ℕ → Bool} {m : ℕ} {e : Ent} : e ∈ frontB t n J sel m ↔
    ∃ k, k < t.NK ∧ sel (J k + (n k - 1)) = true ∧ m + 1 < n k ∧ e = ⟨J k, J k + (n k - 1 - m), J k, J k + n k⟩ := by
  unfold frontB
  simp only [List.mem_map, List.mem_filter, List.mem_range, Bool.and_eq_true, decide_eq_true_eq]
  constructor
  · rintro ⟨k, ⟨h1, h2, h3⟩, rfl⟩; exact ⟨k, h1, h2, h3, rfl⟩
  · rintro ⟨k, h1, h2, h3, rfl⟩; exact ⟨k, ⟨h1, h2, h3⟩, rfl⟩

theorem frontB_zero (B : Blocks t n J L) (sel : ℕ → Bool) : intBwdStart t sel = frontB t n J sel 0 := by
  unfold intBwdStart frontB
  have e : (List.range t.NK).map (fun k => (⟨t.start k, t.I_Nk k, t.start k, t.fin k⟩ : Ent))
      = (List.range t.NK).map (fun k => ⟨J k, J k + (n k - 1 - 0), J k, J k + n k⟩) := by
    refine List.map_congr_left fun k hk => ?_
    have hk := List.mem_range.1 hk
    rw [B.start k hk, I_Nk_eq B hk, B.fin k hk]; rfl
  rw [e, List.filter_map, List.filter_map, List.filter_filter]
  congr 1
  refine List.filter_congr fun k hk => ?_
  have hp := B.pos k (List.mem_range.1 hk)
  rw [Bool.eq_iff_iff]
  simp only [Function.comp_apply, Bool.and_eq_true, decide_eq_true_eq, Nat.sub_zero]
  constructor
  · rintro ⟨h1, h2⟩; exact ⟨h1, by omega⟩
  · rintro ⟨h1, h2⟩; exact ⟨h1, by omega⟩

theorem frontB_succ (B : Blocks t n J L) (sel : ℕ → Bool) (m : ℕ) :
    intBwdNext t (frontB t n J sel m) = frontB t n J sel (m + 1) := by
  unfold intBwdNext frontB
  rw [List.map_map]
  have e : ((List.range t.NK).filter (fun k => sel (J k + (n k - 1)) && decide (m + 1 < n k))).map
        ((fun e : Ent => (⟨e.Im1, t.backwardII e.I, e.I1, e.IE⟩ : Ent)) ∘
          fun k => ⟨J k, J k + (n k - 1 - m), J k, J k + n k⟩)
      = ((List.range t.NK).filter (fun k => sel (J k + (n k - 1)) && decide (m + 1 < n k))).map
        (fun k => ⟨J k, J k + (n k - 1 - (m + 1)), J k, J k + n k⟩) := by
    refine List.map_congr_left fun k hk => ?_
    obtain ⟨h1, h2⟩ := List.mem_filter.1 hk
    rw [Bool.and_eq_true, decide_eq_true_eq] at h2
    have h3 := h2.2
    simp only [Function.comp_apply]
    have e1 : n k - 1 - m = n k - 1 - (m + 1) + 1 := by omega
    rw [e1, ← Nat.add_assoc, B.backwardII (List.mem_range.1 h1) (show n k - 1 - (m + 1) < n k by omega)]
  rw [e, List.filter_map, List.filter_filter]
  congr 1
  refine List.filter_congr fun k hk => ?_
  rw [Bool.eq_iff_iff]
  simp only [Function.comp_apply, Bool.and_eq_true, decide_eq_true_eq]
  constructor
  · rintro ⟨h1, h2, h3⟩; exact ⟨h2, by omega⟩
  · rintro ⟨h1, h2⟩; exact ⟨by omega, h1, by omega⟩

/-- What the backward loop has done after `m` rounds. -/
structure BDone (t : Tables) (n J L : ℕ → ℕ) (f : Fwd K) (bw : Bwd K) (x : Ends K) (sel : ℕ → Bool) (qn : ℕ → K)
    (s0 : HQ K) (m : ℕ) (s : HQ K) : Prop where
  h0 : ∀ k, k < t.NK → s.h (J k) = x.hu k
  hn : ∀ k, k < t.NK → s.h (J k + n k) = x.hd k
  Qn : ∀ k, k < t.NK → s.Q (L k + (n k - 1)) = qn k
  hs : ∀ k, k < t.NK → sel (J k + (n k - 1)) = true → ∀ j, j + 1 < n k → n k ≤ j + 1 + m → s.h (J k + (j + 1))
    = lift x.mn (safeDivide (s.Q (L k + (j + 1)) - bw.Y (J k + (j + 1)) - bw.Z (J k + (j + 1)) * x.hd k)
      (bw.X (J k + (j + 1))))
  Qs : ∀ k, k < t.NK → sel (J k + (n k - 1)) = true → ∀ j, j + 1 < n k → n k ≤ j + 1 + m → s.Q (L k + j)
    = f.U (J k + j) * s.h (J k + (j + 1)) + f.V (J k + j) + f.W (J k + j) * x.hu k
  ho : ∀ k, k < t.NK → sel (J k + (n k - 1)) = false → ∀ j, 1 ≤ j → j < n k → s.h (J k + j) = s0.h (J k + j)
  Qo : ∀ k, k < t.NK → sel (J k + (n k - 1)) = false → ∀ j, 1 ≤ j → j + 1 < n k → s.Q (L k + j) = s0.Q (L k + j)

theorem intBwdBody_done (B : Blocks t n J L) {f : Fwd K} {bw : Bwd K} {x : Ends K} {sel : ℕ → Bool} {qn : ℕ → K}
    {s0 s : HQ K} {m : ℕ} (D : BDone t n J L f bw x sel qn s0 m s) :
    BDone t n J L f bw x sel qn s0 (m + 1) (intBwdBody t f bw x.mn (frontB t n J sel m) s) := by
  have hJ : ∀ e ∈ frontB t n J sel m, ∀ k, k < t.NK → ∀ j, j ≤ n k → e.I = J k + j →
      j + m + 1 = n k ∧ 1 ≤ j ∧ sel (J k + (n k - 1)) = true ∧ e = ⟨J k, J k + (n k - 1 - m), J k, J k + n k⟩ := by
    intro e he k hk j hj c
    obtain ⟨k', hk', hs, hm, rfl⟩ := mem_frontB.1 he
    obtain ⟨rfl, e2⟩ := B.junc_inj hk' hk (show n k' - 1 - m ≤ n k' by omega) hj c
    exact ⟨by omega, by omega, hs, rfl⟩
  have hpos : ∀ k, k < t.NK → m + 1 < n k → t.forwardIi (t.backwardII (J k + (n k - 1 - m))) = L k + (n k - 2 - m) ∧
      t.backwardII (J k + (n k - 1 - m)) = J k + (n k - 2 - m) := by
    intro k hk hm
    have e1 : n k - 1 - m = n k - 2 - m + 1 := by omega
    have hb : t.backwardII (J k + (n k - 1 - m)) = J k + (n k - 2 - m) := by
      rw [e1]; exact B.backwardII hk (show n k - 2 - m < n k by omega)
    exact ⟨by rw [hb, B.forwardIi hk (by omega)], hb⟩
  have hL : ∀ e ∈ frontB t n J sel m, ∀ k, k < t.NK → ∀ j, j < n k → t.forwardIi (t.backwardII e.I) = L k + j →
      j + m + 2 = n k ∧ sel (J k + (n k - 1)) = true ∧ e = ⟨J k, J k + (n k - 1 - m), J k, J k + n k⟩ := by
    intro e he k hk j hj c
    obtain ⟨k', hk', hs, hm, rfl⟩ := mem_frontB.1 he
    rw [(hpos k' hk' hm).1] at c
    obtain ⟨rfl, e2⟩ := B.link_inj hk' hk (by omega) hj c
    exact ⟨by omega, hs, rfl⟩
  have keepJ : ∀ k, k < t.NK → ∀ j, j ≤ n k → (j + m + 1 ≠ n k ∨ j = 0 ∨ sel (J k + (n k - 1)) = false) →
      (intBwdBody t f bw x.mn (frontB t n J sel m) s).h (J k + j) = s.h (J k + j) := by
    intro k hk j hj hne
    refine raise_other fun e he c => ?_
    obtain ⟨a, b, d, -⟩ := hJ e he k hk j hj c
    rcases hne with h | h | h
    · exact h a
    · omega
    · rw [h] at d; exact Bool.noConfusion d
  have keepL : ∀ k, k < t.NK → ∀ j, j < n k → (j + m + 2 ≠ n k ∨ sel (J k + (n k - 1)) = false) →
      (intBwdBody t f bw x.mn (frontB t n J sel m) s).Q (L k + j) = s.Q (L k + j) := by
    intro k hk j hj hne
    refine putAt_other fun e he c => ?_
    obtain ⟨a, b, -⟩ := hL e he k hk j hj c
    rcases hne with h | h
    · exact h a
    · rw [h] at b; exact Bool.noConfusion b
  have newJ : ∀ k, k < t.NK → sel (J k + (n k - 1)) = true → ∀ j, j + m + 2 = n k →
      (intBwdBody t f bw x.mn (frontB t n J sel m) s).h (J k + (j + 1))
        = lift x.mn (safeDivide (s.Q (L k + (j + 1)) - bw.Y (J k + (j + 1)) - bw.Z (J k + (j + 1)) * x.hd k)
          (bw.X (J k + (j + 1)))) := by
    intro k hk hs j hj
    have e1 : n k - 1 - m = j + 1 := by omega
    have he : (⟨J k, J k + (j + 1), J k, J k + n k⟩ : Ent) ∈ frontB t n J sel m :=
      mem_frontB.2 ⟨k, hk, hs, by omega, by rw [e1]⟩
    refine (raise_value he fun e' h' c => ?_).trans ?_
    · rw [(hJ e' h' k hk (j + 1) (by omega) c).2.2.2, e1]
    · rw [B.forwardIi hk (show j + 1 < n k by omega), D.hn k hk]
  have newL : ∀ k, k < t.NK → sel (J k + (n k - 1)) = true → ∀ j, j + m + 2 = n k →
      (intBwdBody t f bw x.mn (frontB t n J sel m) s).Q (L k + j)
        = f.U (J k + j) * (intBwdBody t f bw x.mn (frontB t n J sel m) s).h (J k + (j + 1))
          + f.V (J k + j) + f.W (J k + j) * x.hu k := by
    intro k hk hs j hj
    have e1 : n k - 1 - m = j + 1 := by omega
    have e2 : n k - 2 - m = j := by omega
    have hp := hpos k hk (show m + 1 < n k by omega)
    rw [e1, e2] at hp
    have he : (⟨J k, J k + (j + 1), J k, J k + n k⟩ : Ent) ∈ frontB t n J sel m :=
      mem_frontB.2 ⟨k, hk, hs, by omega, by rw [e1]⟩
    refine putAt_value (fun e' h' c => ?_) (Or.inr ⟨_, he, hp.1⟩)
    rw [(hL e' h' k hk j (by omega) c).2.2, e1]
    have := keepJ k hk 0 (Nat.zero_le _) (Or.inr (Or.inl rfl))
    rw [Nat.add_zero, D.h0 k hk] at this
    show f.U (t.backwardII (J k + (j + 1))) * _ + f.V (t.backwardII (J k + (j + 1)))
      + f.W (t.backwardII (J k + (j + 1))) * _ = _
    rw [hp.2, ← this]; rfl
  refine ⟨?_, ?_, ?_, ?_, ?_, ?_, ?_⟩
  · intro k hk
    exact (keepJ k hk 0 (Nat.zero_le _) (Or.inr (Or.inl rfl))).trans (D.h0 k hk)
  · intro k hk
    exact (keepJ k hk (n k) (le_refl _) (Or.inl (by omega))).trans (D.hn k hk)
  · intro k hk
    have := B.pos k hk
    exact (keepL k hk (n k - 1) (by omega) (Or.inl (by omega))).trans (D.Qn k hk)
  · intro k hk hs j hjn hj
    by_cases h : j + m + 2 = n k
    · rw [newJ k hk hs j h, keepL k hk (j + 1) hjn (Or.inl (by omega))]
    · rw [keepJ k hk (j + 1) hjn.le (Or.inl (by omega)), keepL k hk (j + 1) hjn (Or.inl (by omega))]
      exact D.hs k hk hs j hjn (by omega)
  · intro k hk hs j hjn hj
    by_cases h : j + m + 2 = n k
    · exact newL k hk hs j h
    · rw [keepJ k hk (j + 1) hjn.le (Or.inl (by omega)), keepL k hk j (by omega) (Or.inl (by omega))]
      exact D.Qs k hk hs j hjn (by omega)
  · intro k hk hs j h1 hjn
    exact (keepJ k hk j hjn.le (Or.inr (Or.inr hs))).trans (D.ho k hk hs j h1 hjn)
  · intro k hk hs j h1 hjn
    exact (keepL k hk j (by omega) (Or.inr hs)).trans (D.Qo k hk hs j h1 hjn)

theorem intBwdLoop_done (B : Blocks t n J L) {f : Fwd K} {bw : Bwd K} {x : Ends K} {sel : ℕ → Bool} {qn : ℕ → K}
    {s0 s : HQ K} {fuel m : ℕ} (hf : ∀ k, k < t.NK → n k ≤ fuel + m + 1)
    (D : BDone t n J L f bw x sel qn s0 m s) :
    ∃ s' m', intBwdLoop t f bw x.mn fuel (frontB t n J sel m) s = some s' ∧ BDone t n J L f bw x sel qn s0 m' s' ∧
      ∀ k, k < t.NK → sel (J k + (n k - 1)) = true → n k ≤ m' + 1 := by
  induction fuel generalizing m s with
  | zero =>
    have : frontB t n J sel m = [] := by
      rw [List.eq_nil_iff_forall_not_mem]
      intro e he
      obtain ⟨k, hk, -, h, -⟩ := mem_frontB.1 he
      have := hf k hk
      omega
    rw [this]
    exact ⟨s, m, rfl, D, fun k hk _ => by have := hf k hk; omega⟩
  | succ fuel ih =>
    cases hfr : frontB t n J sel m with
    | nil =>
      refine ⟨s, m, rfl, D, fun k hk hs => ?_⟩
      by_contra h
      have := mem_frontB.2 ⟨k, hk, hs, show m + 1 < n k by omega, rfl⟩
      rw [hfr] at this
      exact List.not_mem_nil this
    | cons e es =>
      show ∃ s' m', intBwdLoop t f bw x.mn fuel (intBwdNext t (e :: es)) (intBwdBody t f bw x.mn (e :: es) s) = some s' ∧ _
      rw [← hfr, frontB_succ B]
      exact ih (fun k hk => by have := hf k hk; omega) (intBwdBody_done B D)

/-- What the backward march leaves in a superlink (local numbering, `n` links). -/
structure BRel (U V W X Y Z : ℕ → K) (mn hu hd q1 qn : K) (n : ℕ) (h Q : ℕ → K) : Prop where
  h0 : h 0 = hu
  hn : h n = hd
  Q0 : 2 ≤ n → Q 0 = q1
  Qn : Q (n - 1) = qn
  hs : ∀ j, 1 ≤ j → j < n → h j = lift mn (safeDivide (Q j - Y j - Z j * hd) (X j))
  Qs : ∀ j, 1 ≤ j → j + 1 < n → Q j = U j * h (j + 1) + V j + W j * hu

/-- The backward loop stops, and leaves in every selected superlink the march from its lower end; the others
get new ends and are otherwise untouched. -/
theorem backwards_rel (B : Blocks t n J L) (f : Fwd K) (bw : Bwd K) (x : Ends K) (sel : ℕ → Bool) {fuel : ℕ}
    (hf : ∀ k, k < t.NK → n k ≤ fuel + 1) (s : HQ K) :
    ∃ s', marchBackwards t f bw x sel fuel s = some s' ∧ ∀ k, k < t.NK →
      (sel (J k + (n k - 1)) = true → BRel (fun j => f.U (J k + j)) (fun j => f.V (J k + j)) (fun j => f.W (J k + j))
        (fun j => bw.X (J k + j)) (fun j => bw.Y (J k + j)) (fun j => bw.Z (J k + j)) x.mn (x.hu k) (x.hd k)
        (firstB t bw x k) (lastB t f x k) (n k) (fun j => s'.h (J k + j)) (fun j => s'.Q (L k + j))) ∧
      (sel (J k + (n k - 1)) = false → (∀ j, 1 ≤ j → j < n k → s'.h (J k + j) = s.h (J k + j)) ∧
        ∀ j, 1 ≤ j → j + 1 < n k → s'.Q (L k + j) = s.Q (L k + j)) := by
  have D0 : BDone t n J L f bw x sel (lastB t f x) s 0 (setEnds t x (firstB t bw x) (lastB t f x) s) := by
    refine ⟨?_, ?_, ?_, ?_, ?_, ?_, ?_⟩
    · intro k hk; exact (setEnds_spec B x _ _ s hk).1
    · intro k hk; exact (setEnds_spec B x _ _ s hk).2.1
    · intro k hk; exact (setEnds_spec B x _ _ s hk).2.2.1
    · intro k hk _ j hj hj'; omega
    · intro k hk _ j hj hj'; omega
    · intro k hk _ j h1 h2; exact (setEnds_spec B x _ _ s hk).2.2.2.2.1 j h1 h2
    · intro k hk _ j h1 h2; exact (setEnds_spec B x _ _ s hk).2.2.2.2.2 j h1 h2
  obtain ⟨s1, m, e, D, hm⟩ := intBwdLoop_done B (m := 0) hf D0
  refine ⟨setEnds t x (firstB t bw x) (lastB t f x) s1, ?_, fun k hk => ?_⟩
  · unfold marchBackwards
    rw [frontB_zero B, e]; rfl
  obtain ⟨a0, an, qn, q1, aj, qj⟩ := setEnds_spec B x (firstB t bw x) (lastB t f x) s1 hk
  refine ⟨fun hs => ⟨a0, an, q1, qn, ?_, ?_⟩, fun hs => ⟨?_, ?_⟩⟩
  · intro j h1 hj
    have hQ : (setEnds t x (firstB t bw x) (lastB t f x) s1).Q (L k + j) = s1.Q (L k + j) := by
      by_cases h : j + 1 < n k
      · exact qj j h1 h
      · have e : j = n k - 1 := by omega
        rw [e]; exact qn.trans (D.Qn k hk).symm
    obtain ⟨i, rfl⟩ : ∃ i, j = i + 1 := ⟨j - 1, by omega⟩
    show (setEnds t x (firstB t bw x) (lastB t f x) s1).h (J k + (i + 1)) = _
    rw [aj (i + 1) h1 hj, hQ]
    exact D.hs k hk hs i hj (by have := hm k hk hs; omega)
  · intro j h1 hj
    show (setEnds t x (firstB t bw x) (lastB t f x) s1).Q (L k + j) = _
    rw [qj j h1 hj, aj (j + 1) (by omega) hj]
    exact D.Qs k hk hs j hj (by have := hm k hk hs; omega)
  · intro j h1 h2
    exact (aj j h1 h2).trans (D.ho k hk hs j h1 h2)
  · intro j h1 h2
    exact (qj j h1 h2).trans (D.Qo k hk hs j h1 h2)

end Pipedream.Base
