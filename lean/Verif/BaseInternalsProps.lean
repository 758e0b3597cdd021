import Verif.BaseInternalsLemmas

/-!
# C127: the internal solve of the base class

Specification: `Sweep.SaintVenant` (the discretised equations) and `Sweep.numbaSolveInternals` (the numba class).
-/

set_option linter.unusedSectionVars false

namespace Pipedream.Base

open Pipedream.Sweep Pipedream.Topology

variable {K : Type*} [Field K] [LinearOrder K] [IsStrictOrderedRing K]

theorem lift_of_le {mn h : K} (hm : mn ≤ h) : lift mn h = h := if_neg (not_lt.2 hm)

theorem lift_eq_iff {mn h : K} : lift mn h = h ↔ mn ≤ h := by
  unfold lift
  split_ifs with c
  · exact ⟨fun e => e.le, fun e => absurd c (not_lt.2 e)⟩
  · exact ⟨fun _ => not_lt.1 c, fun _ => rfl⟩

/-! ### Local statements -/

section loc
variable {U V W X Y Z : ℕ → K} {mn hu hd q1 qn : K} {n : ℕ} {h Q : ℕ → K}

/-- A raised depth no longer belongs to the flow it was computed from. -/
theorem FRel.kept_iff (R : FRel U V W X Y Z mn hu hd q1 qn n h Q) {j : ℕ} (hj : j + 1 < n) (hU : U j ≠ 0) :
    Q j = U j * h (j + 1) + V j + W j * hu ↔ mn ≤ (Q j - V j - W j * hu) / U j := by
  have e := R.hs j hj
  rw [safeDivide_eq] at e
  rw [← lift_eq_iff, ← e, eq_div_iff hU]
  constructor
  · intro c; linear_combination -c
  · intro c; linear_combination -c

theorem BRel.kept_iff (R : BRel U V W X Y Z mn hu hd q1 qn n h Q) {j : ℕ} (h1 : 1 ≤ j) (hj : j < n) (hX : X j ≠ 0) :
    Q j = X j * h j + Y j + Z j * hd ↔ mn ≤ (Q j - Y j - Z j * hd) / X j := by
  have e := R.hs j h1 hj
  rw [safeDivide_eq] at e
  rw [← lift_eq_iff, ← e, eq_div_iff hX]
  constructor
  · intro c; linear_combination -c
  · intro c; linear_combination -c

/-- Any depths and flows that satisfy both recurrence relations, with depths that are not below the minimum, are what the
forward march leaves. -/
theorem FRel.exact (R : FRel U V W X Y Z mn hu hd q1 qn n h Q) {h' Q' : ℕ → K} (hn : 1 ≤ n) (e0 : h' 0 = hu)
    (en : h' n = hd) (F : ∀ j, j < n → Q' j = U j * h' (j + 1) + V j + W j * hu)
    (G : ∀ j, j < n → Q' j = X j * h' j + Y j + Z j * hd) (hU : ∀ j, j < n → U j ≠ 0) (q0 : Q' 0 = q1)
    (qe : Q' (n - 1) = qn) (hm : ∀ j, 1 ≤ j → j < n → mn ≤ h' j) :
    (∀ j, j ≤ n → h j = h' j) ∧ ∀ j, j < n → Q j = Q' j := by
  have key : ∀ j, j < n → h j = h' j ∧ (j + 1 < n → Q j = Q' j) := by
    intro j
    induction j with
    | zero => intro _; exact ⟨R.h0.trans e0.symm, fun h2 => (R.Q0 (by omega)).trans q0.symm⟩
    | succ j ih =>
      intro hj
      have hQ := (ih (by omega)).2 hj
      have hh : h (j + 1) = h' (j + 1) := by
        have e : (Q j - V j - W j * hu) / U j = h' (j + 1) := by
          rw [hQ, div_eq_iff (hU j (by omega)), F j (by omega)]; ring
        rw [R.hs j hj, safeDivide_eq, e]
        exact lift_of_le (hm (j + 1) (by omega) hj)
      refine ⟨hh, fun h2 => ?_⟩
      rw [R.Qs (j + 1) (by omega) h2, hh, ← G (j + 1) (by omega)]
  refine ⟨fun j hj => ?_, fun j hj => ?_⟩
  · rcases Nat.lt_or_eq_of_le hj with c | rfl
    · exact (key j c).1
    · exact R.hn.trans en.symm
  · by_cases c : j + 1 < n
    · exact (key j hj).2 c
    · obtain rfl : j = n - 1 := by omega
      exact R.Qn.trans qe.symm

/-- The same for the backward march. -/
theorem BRel.exact (R : BRel U V W X Y Z mn hu hd q1 qn n h Q) {h' Q' : ℕ → K} (hn : 1 ≤ n) (e0 : h' 0 = hu)
    (en : h' n = hd) (F : ∀ j, j < n → Q' j = U j * h' (j + 1) + V j + W j * hu)
    (G : ∀ j, j < n → Q' j = X j * h' j + Y j + Z j * hd) (hX : ∀ j, j < n → X j ≠ 0) (q0 : Q' 0 = q1)
    (qe : Q' (n - 1) = qn) (hm : ∀ j, 1 ≤ j → j < n → mn ≤ h' j) :
    (∀ j, j ≤ n → h j = h' j) ∧ ∀ j, j < n → Q j = Q' j := by
  have key : ∀ d j, j + d + 1 = n → 1 ≤ j → h j = h' j ∧ Q j = Q' j := by
    intro d
    induction d with
    | zero =>
      intro j hj h1
      obtain rfl : j = n - 1 := by omega
      have hQ : Q (n - 1) = Q' (n - 1) := R.Qn.trans qe.symm
      refine ⟨?_, hQ⟩
      have e : (Q (n - 1) - Y (n - 1) - Z (n - 1) * hd) / X (n - 1) = h' (n - 1) := by
        rw [hQ, div_eq_iff (hX _ (by omega)), G _ (by omega)]; ring
      rw [R.hs _ h1 (by omega), safeDivide_eq, e]
      exact lift_of_le (hm _ h1 (by omega))
    | succ d ih =>
      intro j hj h1
      have hh := (ih (j + 1) (by omega) (by omega)).1
      have hQ : Q j = Q' j := by rw [R.Qs j h1 (by omega), hh, ← F j (by omega)]
      refine ⟨?_, hQ⟩
      have e : (Q j - Y j - Z j * hd) / X j = h' j := by
        rw [hQ, div_eq_iff (hX _ (by omega)), G _ (by omega)]; ring
      rw [R.hs _ h1 (by omega), safeDivide_eq, e]
      exact lift_of_le (hm _ h1 (by omega))
  refine ⟨fun j hj => ?_, fun j hj => ?_⟩
  · rcases Nat.lt_or_eq_of_le hj with c | rfl
    · rcases Nat.eq_zero_or_pos j with rfl | h1
      · exact R.h0.trans e0.symm
      · exact (key (n - 1 - j) j (by omega) h1).1
    · exact R.hn.trans en.symm
  · rcases Nat.eq_zero_or_pos j with rfl | h1
    · by_cases c : 2 ≤ n
      · exact (R.Q0 c).trans q0.symm
      · obtain rfl : n = 1 := by omega
        exact R.Qn.trans qe.symm
    · exact (key (n - 1 - j) j (by omega) h1).2

/-- Comparison with the relations left by the numba class (two links or more). -/
theorem BRel.numba_iff (R : BRel U V W X Y Z mn hu hd (Q_i_b hu hd (X 0) (Y 0) (Z 0))
      (Q_i_f hd hu (U (n - 1)) (V (n - 1)) (W (n - 1))) n h Q) {mx : K} {h' Q' : ℕ → K}
    (N : IntRel U V W X Y Z mn mx hu hd n true h' Q') (h2 : 2 ≤ n) :
    ((∀ j, j ≤ n → h' j = h j) ∧ ∀ j, j < n → Q' j = Q j) ↔ ∀ j, 1 ≤ j → j < n → h j ≤ mx := by
  constructor
  · rintro ⟨eh, -⟩ j h1 hj
    rw [← eh j hj.le, N.hs j h1 h1 hj]
    unfold clipDepth
    dsimp only
    generalize (if h_i_b (Q' j) hd (X j) (Y j) (Z j) < mn then mn else h_i_b (Q' j) hd (X j) (Y j) (Z j)) = y
    split_ifs with c
    · exact le_refl _
    · exact not_lt.1 c
  · intro hmx
    have clip : ∀ j q, 1 ≤ j → j < n → h j = lift mn q → clipDepth mn mx q = h j := by
      intro j q h1 hj e
      have := hmx j h1 hj
      rw [e] at this ⊢
      exact if_neg (not_lt.2 this)
    have key : ∀ d j, j + d + 1 = n → 1 ≤ j → h' j = h j ∧ Q' j = Q j := by
      intro d
      induction d with
      | zero =>
        intro j hj h1
        obtain rfl : j = n - 1 := by omega
        have hQ : Q' (n - 1) = Q (n - 1) := by
          rw [N.Qs _ h1 h1 (by omega), R.Qn, show n - 1 + 1 = n by omega, N.hn]
        refine ⟨?_, hQ⟩
        rw [N.hs _ h1 h1 (by omega), hQ]
        exact clip _ _ h1 (by omega) (R.hs _ h1 (by omega))
      | succ d ih =>
        intro j hj h1
        have hh := (ih (j + 1) (by omega) (by omega)).1
        have hQ : Q' j = Q j := by
          rw [N.Qs _ h1 h1 (by omega), R.Qs _ h1 (by omega), hh]; rfl
        refine ⟨?_, hQ⟩
        rw [N.hs _ h1 h1 (by omega), hQ]
        exact clip _ _ h1 (by omega) (R.hs _ h1 (by omega))
    refine ⟨fun j hj => ?_, fun j hj => ?_⟩
    · rcases Nat.lt_or_eq_of_le hj with c | rfl
      · rcases Nat.eq_zero_or_pos j with rfl | h1
        · exact N.h0.trans R.h0.symm
        · exact (key (n - 1 - j) j (by omega) h1).1
      · exact N.hn.trans R.hn.symm
    · rcases Nat.eq_zero_or_pos j with rfl | h1
      · rw [N.Q0, R.Q0 h2]; rfl
      · exact (key (n - 1 - j) j (by omega) h1).2

end loc

/-! ### C127 -/

variable {t : Tables} {n J L : ℕ → ℕ}

/-- Sweeps of every superlink: what `forward_recurrence` and `backward_recurrence` leave (C124, C01). -/
structure Swept (t : Tables) (n J L : ℕ → ℕ) (g : K) (co : Coef K) (f : Fwd K) (bw : Bwd K) : Prop where
  fwd : ∀ k, k < t.NK → FwdRel g (co.slice (L k) (J k)) (n k) (fun j => f.T (L k + j)) (fun j => f.U (J k + j))
    (fun j => f.V (J k + j)) (fun j => f.W (J k + j))
  bwd : ∀ k, k < t.NK → BwdRel g (co.slice (L k) (J k)) (n k) (fun j => bw.O (L k + j)) (fun j => bw.X (J k + j))
    (fun j => bw.Y (J k + j)) (fun j => bw.Z (J k + j))

/-- **C127.** If the discretised equations of all superlinks have a solution with the given end flows and end depths in
which no depth is below the minimum, both directions of the base class stop with that solution, whatever was
in the arrays (end method other than `'o'`). -/
theorem C127_exact_partial (B : Blocks t n J L) {g : K} {co : Coef K} {f : Fwd K} {bw : Bwd K} (x : Ends K)
    (S : Swept t n J L g co f bw) (ph : ∀ k, k < t.NK → Physical g (co.slice (L k) (J k)) (n k)) (ho : x.o = false)
    (hE : x.E = co.E) (hD : x.D = co.D) {fuel : ℕ} (hf : ∀ k, k < t.NK → n k ≤ fuel + 1) (s sol : HQ K)
    (sv : ∀ k, k < t.NK → SaintVenant g (co.slice (L k) (J k)) (n k) (fun j => sol.Q (L k + j))
      (fun j => sol.h (J k + j)) (x.Qu k) (x.Qd k))
    (eu : ∀ k, k < t.NK → sol.h (J k) = x.hu k) (ed : ∀ k, k < t.NK → sol.h (J k + n k) = x.hd k)
    (hm : ∀ k, k < t.NK → ∀ j, j ≤ n k → x.mn ≤ sol.h (J k + j)) :
    (∃ s', internalsForwards t f bw x (fun _ => true) fuel s = some s' ∧ ∀ k, k < t.NK →
      (∀ j, j ≤ n k → s'.h (J k + j) = sol.h (J k + j)) ∧ ∀ j, j < n k → s'.Q (L k + j) = sol.Q (L k + j)) ∧
    (∃ s', internalsBackwards t f bw x (fun _ => true) fuel s = some s' ∧ ∀ k, k < t.NK →
      (∀ j, j ≤ n k → s'.h (J k + j) = sol.h (J k + j)) ∧ ∀ j, j < n k → s'.Q (L k + j) = sol.Q (L k + j)) := by
  have rF : ∀ k, k < t.NK → ∀ j, j < n k →
      sol.Q (L k + j) = f.U (J k + j) * sol.h (J k + (j + 1)) + f.V (J k + j) + f.W (J k + j) * x.hu k := by
    intro k hk j hj
    have := fwd_sound (S.fwd k hk) (physical_fwdPivots (ph k hk) (S.fwd k hk)) (sv k hk) j hj
    rw [← eu k hk]; exact this
  have rB : ∀ k, k < t.NK → ∀ j, j < n k →
      sol.Q (L k + j) = bw.X (J k + j) * sol.h (J k + j) + bw.Y (J k + j) + bw.Z (J k + j) * x.hd k := by
    intro k hk j hj
    have := bwd_sound (S.bwd k hk) (physical_bwdPivots (ph k hk) (S.bwd k hk)) (sv k hk) j hj
    rw [← ed k hk]; exact this
  have q0 : ∀ k, k < t.NK → sol.Q (L k) = x.Qu k - x.E (J k) * x.hu k + x.D (J k) := by
    intro k hk
    have hp := B.pos k hk
    have c := (sv k hk).continuity 0 (Nat.zero_le _)
    have e : qOut (n k) (fun j => sol.Q (L k + j)) (x.Qd k) 0 = sol.Q (L k) := if_neg (by omega)
    rw [e] at c
    simp only [qIn, if_true, Coef.slice, Nat.add_zero] at c
    rw [eu k hk] at c
    rw [hE, hD]
    linear_combination c
  have qe : ∀ k, k < t.NK → sol.Q (L k + (n k - 1)) = x.Qd k + x.E (J k + n k) * x.hd k - x.D (J k + n k) := by
    intro k hk
    have hp := B.pos k hk
    have c := (sv k hk).continuity (n k) (le_refl _)
    have e : qIn (fun j => sol.Q (L k + j)) (x.Qu k) (n k) = sol.Q (L k + (n k - 1)) := if_neg (by omega)
    rw [e] at c
    simp only [qOut, if_true, Coef.slice] at c
    rw [ed k hk] at c
    rw [hE, hD]
    linear_combination -c
  have fl : ∀ (s1 : HQ K), (∀ k, k < t.NK → (∀ j, j ≤ n k → s1.h (J k + j) = sol.h (J k + j)) ∧
      ∀ j, j < n k → s1.Q (L k + j) = sol.Q (L k + j)) → ∀ k, k < t.NK →
      (∀ j, j ≤ n k → (floorAll x.mn s1).h (J k + j) = sol.h (J k + j)) ∧
      ∀ j, j < n k → (floorAll x.mn s1).Q (L k + j) = sol.Q (L k + j) := by
    intro s1 H k hk
    refine ⟨fun j hj => ?_, (H k hk).2⟩
    show lift x.mn (s1.h (J k + j)) = _
    rw [(H k hk).1 j hj]
    exact lift_of_le (hm k hk j hj)
  constructor
  · obtain ⟨s1, e, R⟩ := forwards_rel B f bw x (fun _ => true) hf s
    refine ⟨floorAll x.mn s1, by rw [internalsForwards, e]; rfl, fl s1 fun k hk => ?_⟩
    refine ((R k hk).1 rfl).exact (B.pos k hk) (eu k hk) (ed k hk) (rF k hk) (rB k hk)
      (fun j hj => ((fwd_signs (ph k hk) (S.fwd k hk) j hj).2.2.1).ne) ?_ ?_ (fun j _ h2 => hm k hk j h2.le)
    · rw [firstF, ho, B.start k hk]; exact q0 k hk
    · rw [lastF, ho, B.fin k hk]; exact qe k hk
  · obtain ⟨s1, e, R⟩ := backwards_rel B f bw x (fun _ => true) hf s
    refine ⟨floorAll x.mn s1, by rw [internalsBackwards, e]; rfl, fl s1 fun k hk => ?_⟩
    refine ((R k hk).1 rfl).exact (B.pos k hk) (eu k hk) (ed k hk) (rF k hk) (rB k hk)
      (fun j hj => ((bwd_signs (ph k hk) (S.bwd k hk) j hj).2.2.1).ne') ?_ ?_ (fun j _ h2 => hm k hk j h2.le)
    · have hp := B.pos k hk
      have := rB k hk 0 hp
      rw [Nat.add_zero, Nat.add_zero, eu k hk] at this
      simp only [firstB, ho, B.start k hk, Bool.false_eq_true, if_false]
      rw [Nat.add_zero, this]; ring
    · have hp := B.pos k hk
      have := rF k hk (n k - 1) (by omega)
      rw [show n k - 1 + 1 = n k by omega, ed k hk] at this
      simp only [lastB, ho, I_Nk_eq B hk, Bool.false_eq_true, if_false]
      rw [this]; ring

/-- **C127 fails where a depth is raised.** If the forward march had to raise the depth of a junction inside superlink
`k`, the depths and flows it leaves satisfy the discretised equations for no end flows at all. -/
theorem C127_raised_forwards (B : Blocks t n J L) {g : K} {co : Coef K} {f : Fwd K} {bw : Bwd K} (x : Ends K)
    (S : Swept t n J L g co f bw) (ph : ∀ k, k < t.NK → Physical g (co.slice (L k) (J k)) (n k)) {fuel : ℕ}
    (hf : ∀ k, k < t.NK → n k ≤ fuel + 1) (s : HQ K) :
    ∃ s', marchForwards t f bw x (fun _ => true) fuel s = some s' ∧ ∀ k, k < t.NK → ∀ j, j + 1 < n k →
      (s'.Q (L k + j) - f.V (J k + j) - f.W (J k + j) * x.hu k) / f.U (J k + j) < x.mn →
      ∀ Qu Qd, ¬ SaintVenant g (co.slice (L k) (J k)) (n k) (fun j => s'.Q (L k + j)) (fun j => s'.h (J k + j)) Qu Qd := by
  obtain ⟨s1, e, R⟩ := forwards_rel B f bw x (fun _ => true) hf s
  refine ⟨s1, e, fun k hk j hj hlt Qu Qd sv => ?_⟩
  have hU := ((fwd_signs (ph k hk) (S.fwd k hk) j (by omega)).2.2.1).ne
  have r := (R k hk).1 rfl
  have c := fwd_sound (S.fwd k hk) (physical_fwdPivots (ph k hk) (S.fwd k hk)) sv j (by omega)
  rw [r.h0] at c
  exact absurd ((r.kept_iff hj hU).1 c) (not_le.2 hlt)

/-- The same for the backward march. -/
theorem C127_raised_backwards (B : Blocks t n J L) {g : K} {co : Coef K} {f : Fwd K} {bw : Bwd K} (x : Ends K)
    (S : Swept t n J L g co f bw) (ph : ∀ k, k < t.NK → Physical g (co.slice (L k) (J k)) (n k)) {fuel : ℕ}
    (hf : ∀ k, k < t.NK → n k ≤ fuel + 1) (s : HQ K) :
    ∃ s', marchBackwards t f bw x (fun _ => true) fuel s = some s' ∧ ∀ k, k < t.NK → ∀ j, 1 ≤ j → j < n k →
      (s'.Q (L k + j) - bw.Y (J k + j) - bw.Z (J k + j) * x.hd k) / bw.X (J k + j) < x.mn →
      ∀ Qu Qd, ¬ SaintVenant g (co.slice (L k) (J k)) (n k) (fun j => s'.Q (L k + j)) (fun j => s'.h (J k + j)) Qu Qd := by
  obtain ⟨s1, e, R⟩ := backwards_rel B f bw x (fun _ => true) hf s
  refine ⟨s1, e, fun k hk j h1 hj hlt Qu Qd sv => ?_⟩
  have hX := ((bwd_signs (ph k hk) (S.bwd k hk) j hj).2.2.1).ne'
  have r := (R k hk).1 rfl
  have c := bwd_sound (S.bwd k hk) (physical_bwdPivots (ph k hk) (S.bwd k hk)) sv j hj
  rw [r.hn] at c
  exact absurd ((r.kept_iff h1 hj hX).1 c) (not_le.2 hlt)

/-- **C127.** The backward march of the base class and the one of the numba class leave the same depths and flows in a
superlink of two links or more exactly if no depth left by the base class exceeds the maximum (the base class
knows none). -/
theorem C127_numba_iff (B : Blocks t n J L) (f : Fwd K) (bw : Bwd K) (x : Ends K) (ho : x.o = false) {fuel : ℕ}
    (hf : ∀ k, k < t.NK → n k ≤ fuel + 1) (mx : ℕ → K) (s s2 : HQ K) :
    ∃ s', marchBackwards t f bw x (fun _ => true) fuel s = some s' ∧ ∀ k, k < t.NK → 2 ≤ n k →
      let r := numbaSolveInternals f bw x.mn mx x.hu x.hd t.i_1k t.start t.nk t.NK true s2
      ((∀ j, j ≤ n k → r.h (J k + j) = s'.h (J k + j)) ∧ ∀ j, j < n k → r.Q (L k + j) = s'.Q (L k + j)) ↔
        ∀ j, 1 ≤ j → j < n k → s'.h (J k + j) ≤ mx k := by
  obtain ⟨s1, e, R⟩ := backwards_rel B f bw x (fun _ => true) hf s
  refine ⟨s1, e, ?_⟩
  intro k hk h2 r
  have N := numbaSolveInternals_spec f bw x.mn mx x.hu x.hd t.i_1k t.start t.nk t.NK true s2 B.layout k hk
  rw [B.i_1k hk, B.start k hk, B.nk hk] at N
  have r1 := (R k hk).1 rfl
  have e1 : firstB t bw x k = Q_i_b (x.hu k) (x.hd k) (bw.X (J k + 0)) (bw.Y (J k + 0)) (bw.Z (J k + 0)) := by
    simp only [firstB, ho, B.start k hk, Bool.false_eq_true, if_false, Q_i_b, Nat.add_zero]; ring
  have e2 : lastB t f x k
      = Q_i_f (x.hd k) (x.hu k) (f.U (J k + (n k - 1))) (f.V (J k + (n k - 1))) (f.W (J k + (n k - 1))) := by
    simp only [lastB, ho, I_Nk_eq B hk, Bool.false_eq_true, if_false, Q_i_f]; ring
  rw [e1, e2] at r1
  exact r1.numba_iff N h2

/-- **C127.** The two directions restricted to complementary superlinks, one after the other (`supercritical_only`, then
`subcritical_only`), march every superlink once: each leaves the inside of the superlinks of the other alone. -/
theorem C127_split (B : Blocks t n J L) (f : Fwd K) (bw : Bwd K) (x : Ends K) (sup : ℕ → Bool) {fuel : ℕ}
    (hs : ∀ k, k < t.NK → ∀ j, j ≤ n k → sup (J k + j) = sup (J k)) (hf : ∀ k, k < t.NK → n k ≤ fuel + 1) (s : HQ K) :
    ∃ s1 s2, marchForwards t f bw x sup fuel s = some s1 ∧ marchBackwards t f bw x (fun I => !sup I) fuel s1 = some s2 ∧
      ∀ k, k < t.NK → sup (J k) = true → (∀ j, j ≤ n k → s2.h (J k + j) = s1.h (J k + j)) ∧
        ∀ j, 1 ≤ j → j + 1 < n k → s2.Q (L k + j) = s1.Q (L k + j) := by
  obtain ⟨s1, e1, R1⟩ := forwards_rel B f bw x sup hf s
  obtain ⟨s2, e2, R2⟩ := backwards_rel B f bw x (fun I => !sup I) hf s1
  refine ⟨s1, s2, e1, e2, fun k hk hsup => ?_⟩
  have hp := B.pos k hk
  have h1 : sup (J k + 1) = true := (hs k hk 1 hp).trans hsup
  have h2 : (!sup (J k + (n k - 1))) = false := by rw [hs k hk (n k - 1) (by omega), hsup]; rfl
  obtain ⟨a, b⟩ := (R2 k hk).2 h2
  have r1 := (R1 k hk).1 h1
  refine ⟨fun j hj => ?_, b⟩
  have ends : s2.h (J k) = x.hu k ∧ s2.h (J k + n k) = x.hd k := by
    unfold marchBackwards at e2
    obtain ⟨s3, -, rfl⟩ := Option.map_eq_some_iff.1 e2
    exact ⟨(setEnds_spec B x _ _ s3 hk).1, (setEnds_spec B x _ _ s3 hk).2.1⟩
  rcases Nat.eq_zero_or_pos j with rfl | h0
  · exact ends.1.trans r1.h0.symm
  · rcases Nat.lt_or_eq_of_le hj with c | rfl
    · exact a j h0 c
    · exact ends.2.trans r1.hn.symm

/-! ### Cases -/

/-- Still water, one deep, in the table of two superlinks with one and two links. -/
def stillCo : Coef ℚ := ⟨fun _ => -1, fun _ => 5, fun _ => -1, fun _ => 0, fun _ => 2, fun _ => 1, fun _ => 1⟩
def stillEnds (mn : ℚ) : Ends ℚ := ⟨fun _ => 0, fun _ => 0, fun _ => 1, fun _ => 1, stillCo.E, stillCo.D, mn, false⟩

theorem stillCo_physical (i I n : ℕ) : Physical (10 : ℚ) (stillCo.slice i I) n := by
  refine ⟨by norm_num, ?_, ?_, ?_, ?_, ?_⟩ <;> intros <;> norm_num [stillCo, Coef.slice]

/-- The sweeps meet `Swept`. -/
theorem swept (B : Blocks t n J L) (g : K) (co : Coef K) (f0 : Fwd K) (b0 : Bwd K) :
    Swept t n J L g co (sweptFwd g co t.idx f0) (sweptBwd g co t.idx b0) := by
  constructor
  · intro k hk
    have := sweptFwd_rel g co t.idx f0 B.layout (k := k) hk
    rwa [show t.idx.i_1k k = L k from B.i_1k hk, show t.idx.I_1k k = J k from B.start k hk,
      show t.idx.nk k = n k from B.nk hk] at this
  · intro k hk
    have := sweptBwd_rel g co t.idx b0 B.layout (k := k) hk
    rwa [show t.idx.i_1k k = L k from B.i_1k hk, show t.idx.I_1k k = J k from B.start k hk,
      show t.idx.nk k = n k from B.nk hk] at this

theorem still_solution (i I n : ℕ) : SaintVenant (10 : ℚ) (stillCo.slice i I) n (fun _ => 0) (fun _ => 1) 0 0 := by
  constructor
  · intro i _
    simp only [qIn, qOut, ite_self]; norm_num [stillCo, Coef.slice]
  · intro I _
    simp only [qIn, qOut, ite_self]; norm_num [stillCo, Coef.slice]

/-- Still water stays still, from any contents of the arrays, in both directions. -/
example (f0 : Fwd ℚ) (b0 : Bwd ℚ) (s : HQ ℚ) :
    let f := sweptFwd 10 stillCo Lsq.mixed.idx f0
    let bw := sweptBwd 10 stillCo Lsq.mixed.idx b0
    (∃ s', internalsForwards Lsq.mixed f bw (stillEnds (1/100)) (fun _ => true) 1 s = some s' ∧ s'.h 3 = 1 ∧ s'.Q 1 = 0) ∧
    ∃ s', internalsBackwards Lsq.mixed f bw (stillEnds (1/100)) (fun _ => true) 1 s = some s' ∧ s'.h 3 = 1 ∧ s'.Q 2 = 0 := by
  have B := Lsq.mixed_ordered.toBlocks
  have h2 : Lsq.mixed.NK = 2 := rfl
  obtain ⟨⟨s1, e1, H1⟩, s2, e2, H2⟩ := C127_exact_partial B (stillEnds (1/100)) (swept B 10 stillCo f0 b0)
    (fun k _ => stillCo_physical _ _ _) rfl rfl rfl (fuel := 1)
    (fun k hk => by rw [h2] at hk; show k + 1 ≤ 1 + 1; omega) s ⟨fun _ => 1, fun _ => 0⟩
    (fun k _ => still_solution _ _ _) (fun _ _ => rfl) (fun _ _ => rfl)
    (fun k _ j _ => by norm_num [stillEnds])
  have k1 : 1 < Lsq.mixed.NK := by rw [h2]; omega
  exact ⟨⟨s1, e1, (H1 1 k1).1 1 (by norm_num), (H1 1 k1).2 0 (by norm_num)⟩,
    s2, e2, (H2 1 k1).1 1 (by norm_num), (H2 1 k1).2 1 (by norm_num)⟩

/-- **C127 (witness).** With a minimum depth above the water the forward march raises the inner junction, and what it
leaves solves the equations for no end flows. -/
theorem C127_witness (f0 : Fwd ℚ) (b0 : Bwd ℚ) (s : HQ ℚ) :
    ∃ s', marchForwards Lsq.mixed (sweptFwd 10 stillCo Lsq.mixed.idx f0) (sweptBwd 10 stillCo Lsq.mixed.idx b0)
        (stillEnds 2) (fun _ => true) 1 s = some s' ∧
      ∀ Qu Qd, ¬ SaintVenant 10 (stillCo.slice 1 2) 2 (fun j => s'.Q (1 + j)) (fun j => s'.h (2 + j)) Qu Qd := by
  have B := Lsq.mixed_ordered.toBlocks
  have h2 : Lsq.mixed.NK = 2 := rfl
  have k1 : 1 < Lsq.mixed.NK := by rw [h2]; omega
  have S := swept B 10 stillCo f0 b0
  have hf : ∀ k, k < Lsq.mixed.NK → k + 1 ≤ 1 + 1 := fun k hk => by rw [h2] at hk; omega
  obtain ⟨s1, e1, H⟩ := C127_raised_forwards B (stillEnds 2) S (fun k _ => stillCo_physical _ _ _) (fuel := 1) hf s
  obtain ⟨s1', e1', R⟩ := forwards_rel B (sweptFwd 10 stillCo Lsq.mixed.idx f0) (sweptBwd 10 stillCo Lsq.mixed.idx b0)
    (stillEnds 2) (fun _ => true) (fuel := 1) hf s
  obtain rfl : s1 = s1' := Option.some_injective _ (e1.symm.trans e1')
  refine ⟨s1, e1, H 1 k1 0 (by norm_num) ?_⟩
  have q := ((R 1 k1).1 rfl).Q0 (by norm_num)
  have q' : firstF Lsq.mixed (stillEnds 2) 1 = 0 := by norm_num [firstF, stillEnds, stillCo]
  rw [q'] at q
  have sg := ((fwd_signs (stillCo_physical _ _ _) (S.fwd 1 k1) 0 (by norm_num)).2.2.1)
  have c := fwd_sound (S.fwd 1 k1) (physical_fwdPivots (stillCo_physical _ _ _) (S.fwd 1 k1)) (still_solution _ _ _) 0
    (by norm_num)
  rw [q, div_lt_iff_of_neg sg]
  show (2 : ℚ) * _ < 0 - _ - _ * 1
  linarith

end Pipedream.Base
