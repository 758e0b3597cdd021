import Verif.SweepAlgebra

/-!
# Properties of the internal sweeps: C01, C02, C03, C10

`sweptFwd`, `sweptBwd` and `sweptInternals` below are just the code path of one step: forward sweep,
backward sweep, internal solve.
-/

namespace Pipedream.Sweep

variable {K : Type*} [Field K] [LinearOrder K] [IsStrictOrderedRing K]

/-- Index arrays of the superlinks (superlink.py 1002–1123): `k`-th superlink has `nk k` links
starting at link `i_1k k`, and `nk k + 1` junctions starting at junction `I_1k k`. -/
structure Idx where
  NK : ℕ
  nk : ℕ → ℕ
  I_1k : ℕ → ℕ
  i_1k : ℕ → ℕ

/-- `_I_Nk` (penultimate junction). -/
def Idx.I_Nk (ix : Idx) (k : ℕ) : ℕ := ix.I_1k k + ix.nk k - 1

/-- `_i_nk` (last link). -/
def Idx.i_nk (ix : Idx) (k : ℕ) : ℕ := ix.i_1k k + ix.nk k - 1

/-- The forward coefficients computed in a step over whatever arrays `f0` held before. -/
def sweptFwd (g : K) (co : Coef K) (ix : Idx) (f0 : Fwd K) : Fwd K :=
  forwardRecurrence g co ix.NK ix.nk ix.I_1k ix.i_1k f0

/-- The backward coefficients computed in a step over whatever arrays `b0` held before. -/
def sweptBwd (g : K) (co : Coef K) (ix : Idx) (b0 : Bwd K) : Bwd K :=
  backwardRecurrence g co ix.NK ix.nk ix.I_Nk ix.i_nk b0

/-- Depths and flows after a step, for given end depths `hu k`, `hd k`. -/
def sweptInternals (g : K) (co : Coef K) (ix : Idx) (mn : K) (mx hu hd : ℕ → K) (back : Bool)
    (f0 : Fwd K) (b0 : Bwd K) (s0 : HQ K) : HQ K :=
  solveInternals (sweptFwd g co ix f0) (sweptBwd g co ix b0) mn mx hu hd ix.i_1k ix.I_1k ix.nk ix.NK
    back s0

/-! ### C02: no pivot vanishes -/

theorem physical_fwdPivots {g : K} {co : Coef K} {n : ℕ} {T U V W : ℕ → K} (ph : Physical g co n)
    (R : FwdRel g co n T U V W) : FwdPivots co n T U := by
  have s := fwd_signs ph R
  refine ⟨fun j hj => (s j hj).2.1.ne', fun j hj => ?_⟩
  have := (s j (by omega)).2.2.1
  have := ph.E_nonneg (j+1) (by omega)
  exact ne_of_lt (by linarith)

theorem physical_bwdPivots {g : K} {co : Coef K} {n : ℕ} {O X Y Z : ℕ → K} (ph : Physical g co n)
    (R : BwdRel g co n O X Y Z) : BwdPivots co n O X := by
  have s := bwd_signs ph R
  refine ⟨fun j hj => (s j hj).2.1.ne', fun j hj => ?_⟩
  have := (s (j+1) hj).2.2.1
  have := ph.E_nonneg (j+1) (by omega)
  exact ne_of_gt (by linarith)

omit [IsStrictOrderedRing K] in
theorem sweptFwd_rel (g : K) (co : Coef K) (ix : Idx) (f0 : Fwd K)
    (L : Layout ix.NK ix.nk ix.I_1k ix.i_1k) {k : ℕ} (hk : k < ix.NK) :
    let f := sweptFwd g co ix f0
    FwdRel g (co.slice (ix.i_1k k) (ix.I_1k k)) (ix.nk k) (fun j => f.T (ix.i_1k k + j))
      (fun j => f.U (ix.I_1k k + j)) (fun j => f.V (ix.I_1k k + j)) (fun j => f.W (ix.I_1k k + j)) :=
  forwardRecurrence_spec g co ix.NK ix.nk ix.I_1k ix.i_1k f0 L k hk

omit [IsStrictOrderedRing K] in
theorem sweptBwd_rel (g : K) (co : Coef K) (ix : Idx) (b0 : Bwd K)
    (L : Layout ix.NK ix.nk ix.I_1k ix.i_1k) {k : ℕ} (hk : k < ix.NK) :
    let bw := sweptBwd g co ix b0
    BwdRel g (co.slice (ix.i_1k k) (ix.I_1k k)) (ix.nk k) (fun j => bw.O (ix.i_1k k + j))
      (fun j => bw.X (ix.I_1k k + j)) (fun j => bw.Y (ix.I_1k k + j))
      (fun j => bw.Z (ix.I_1k k + j)) :=
  backwardRecurrence_spec g co ix.NK ix.nk ix.I_1k ix.i_1k ix.I_Nk ix.i_nk b0 L
    (fun _ _ => rfl) (fun _ _ => rfl) k hk

/-- **C02.** For physical coefficients, every quantity the two sweeps and the internal solve divide
by is strictly signed (hence non-zero), at every link of every superlink, whatever was in the arrays
before: the pivots `T`, `O` are at least `a+b+c > 0`, the inner denominators `U_{I-1} - E_I` are
negative, `X_{I+1} + E_{I+1}` and `X_I` positive. -/
theorem C02_pivots_positive (g : K) (co : Coef K) (ix : Idx) (f0 : Fwd K) (b0 : Bwd K)
    (L : Layout ix.NK ix.nk ix.I_1k ix.i_1k) {k : ℕ} (hk : k < ix.NK)
    (ph : Physical g (co.slice (ix.i_1k k) (ix.I_1k k)) (ix.nk k)) :
    let f := sweptFwd g co ix f0
    let bw := sweptBwd g co ix b0
    (∀ j, j < ix.nk k →
      0 < co.a (ix.i_1k k + j) + co.b (ix.i_1k k + j) + co.c (ix.i_1k k + j) ∧
      co.a (ix.i_1k k + j) + co.b (ix.i_1k k + j) + co.c (ix.i_1k k + j) ≤ f.T (ix.i_1k k + j) ∧
      co.a (ix.i_1k k + j) + co.b (ix.i_1k k + j) + co.c (ix.i_1k k + j) ≤ bw.O (ix.i_1k k + j) ∧
      0 < bw.X (ix.I_1k k + j)) ∧
    (∀ j, j + 1 < ix.nk k →
      f.U (ix.I_1k k + j) - co.E (ix.I_1k k + (j + 1)) < 0 ∧
      0 < bw.X (ix.I_1k k + (j + 1)) + co.E (ix.I_1k k + (j + 1))) := by
  intro f bw
  have F := fwd_signs ph (sweptFwd_rel g co ix f0 L hk)
  have B := bwd_signs ph (sweptBwd_rel g co ix b0 L hk)
  refine ⟨fun j hj => ⟨ph.abc_pos j hj, (F j hj).1, (B j hj).1, (B j hj).2.2.1⟩, fun j hj => ⟨?_, ?_⟩⟩
  · have h1 := (F j (by omega)).2.2.1
    have h2 := ph.E_nonneg (j+1) (by omega)
    simp only [Coef.slice] at h1 h2
    linarith
  · have h1 := (B (j+1) hj).2.2.1
    have h2 := ph.E_nonneg (j+1) (by omega)
    simp only [Coef.slice] at h1 h2
    linarith

/-! ### C01 -/

omit [IsStrictOrderedRing K] in
theorem clip_eq_of_strict {mn mx x : K} (h1 : mn < clipDepth mn mx x) (h2 : clipDepth mn mx x < mx) :
    clipDepth mn mx x = x := by
  unfold clipDepth at *
  simp only at *
  split_ifs at * with a b c
  all_goals first | rfl | (exfalso; linarith) | (exfalso; exact lt_irrefl _ ‹_›)

omit [IsStrictOrderedRing K] in
theorem clip_eq_of_mem {mn mx x : K} (h1 : mn ≤ x) (h2 : x ≤ mx) : clipDepth mn mx x = x := by
  unfold clipDepth
  simp [not_lt.mpr h1, not_lt.mpr h2]

omit [IsStrictOrderedRing K] in
/-- Core induction: as long as every interior depth equals the unclipped one, the internal solve
reproduces any solution of the difference equations with the same end depths. -/
theorem internals_eq_solution {g : K} {co : Coef K} {n : ℕ} {T U V W O X Y Z : ℕ → K} (hn : 1 ≤ n)
    (F : FwdRel g co n T U V W) (B : BwdRel g co n O X Y Z)
    (fp : FwdPivots co n T U) (bp : BwdPivots co n O X) (xp : ∀ j, 1 ≤ j → j < n → X j ≠ 0)
    {mn mx hu hd : K} {back : Bool} {h Q : ℕ → K}
    (R : IntRel U V W X Y Z mn mx hu hd n back h Q)
    {Q' h' : ℕ → K} {Qu Qd : K} (S : SaintVenant g co n Q' h' Qu Qd) (e0 : h' 0 = hu) (en : h' n = hd)
    (unclipped : ∀ j, 1 ≤ j → j < n → clipDepth mn mx (h' j) = h' j ∨
      (mn < h j ∧ h j < mx)) :
    (∀ j, j ≤ n → h j = h' j) ∧ (∀ j, j < n → Q j = Q' j) := by
  have fs := fwd_sound F fp S
  have bs := bwd_sound B bp S
  have main : ∀ m, ∀ j, j + m = n → 1 ≤ j → h j = h' j := by
    intro m
    induction m with
    | zero => intro j hj _
              obtain rfl : j = n := by omega
              rw [R.hn, en]
    | succ m ih =>
      intro j hj h1
      have nx := ih (j+1) (by omega) (by omega)
      have hjn : j < n := by omega
      have q := R.Qs j h1 h1 hjn
      have hc := R.hs j h1 h1 hjn
      have q' : Q j = Q' j := by
        rw [q, fs j hjn, Q_i_f, nx, e0]
      have hb : h_i_b (Q j) hd (X j) (Y j) (Z j) = h' j := by
        have := bs j hjn
        have hx := xp j h1 hjn
        rw [h_i_b, safeDivide_eq, q', this, en]
        field_simp
        ring
      rw [hb] at hc
      rcases unclipped j h1 hjn with hu' | ⟨ha, hb'⟩
      · rw [hc, hu']
      · rw [hc] at ha hb'
        rw [hc]
        exact clip_eq_of_strict ha hb'
  have hall : ∀ j, j ≤ n → h j = h' j := by
    intro j hj
    rcases Nat.eq_zero_or_pos j with h0 | h0
    · subst h0; rw [R.h0, e0]
    · exact main (n - j) j (by omega) h0
  refine ⟨hall, fun j hj => ?_⟩
  rcases Nat.eq_zero_or_pos j with h0 | h0
  · subst h0
    rw [R.Q0]
    cases back
    · simp only [Bool.false_eq_true, if_false]
      rw [fs 0 hj, Q_i_f, hall 1 hj, e0]
    · simp only [if_true]
      rw [bs 0 hj, Q_i_b, e0, en]
  · rw [R.Qs j h0 h0 hj, fs j hj, Q_i_f, hall (j+1) hj, e0]

omit [LinearOrder K] [IsStrictOrderedRing K] in
theorem SaintVenant.congr {g : K} {co : Coef K} {n : ℕ} {Q h Q' h' : ℕ → K} {Qu Qd : K}
    (S : SaintVenant g co n Q' h' Qu Qd)
    (eh : ∀ j, j ≤ n → h j = h' j) (eQ : ∀ j, j < n → Q j = Q' j) (hn : 1 ≤ n) :
    SaintVenant g co n Q h Qu Qd := by
  have ein : ∀ I, I ≤ n → qIn Q Qu I = qIn Q' Qu I := by
    intro I hI; unfold qIn; split_ifs with h0
    · rfl
    · exact eQ _ (by omega)
  have eout : ∀ I, I ≤ n → qOut n Q Qd I = qOut n Q' Qd I := by
    intro I hI; unfold qOut; split_ifs with h0
    · rfl
    · exact eQ _ (by omega)
  refine ⟨fun i hi => ?_, fun I hI => ?_⟩
  · rw [ein i hi.le, eout (i+1) hi, eQ i hi, eh i hi.le, eh (i+1) hi]; exact S.momentum i hi
  · rw [ein I hI, eout I hI, eh I hI]; exact S.continuity I hI

omit [IsStrictOrderedRing K] in
/-- The final raise to `min_depth` changes nothing inside a superlink whose depths are ≥ `min_depth`. -/
theorem sweptInternals_rel (g : K) (co : Coef K) (ix : Idx) (mn : K) (mx hu hd : ℕ → K) (back : Bool)
    (f0 : Fwd K) (b0 : Bwd K) (s0 : HQ K) (L : Layout ix.NK ix.nk ix.I_1k ix.i_1k) {k : ℕ}
    (hk : k < ix.NK) (eu : mn ≤ hu k) (ed : mn ≤ hd k)
    (mm : mn ≤ mx k) :
    let f := sweptFwd g co ix f0
    let bw := sweptBwd g co ix b0
    let s := sweptInternals g co ix mn mx hu hd back f0 b0 s0
    IntRel (fun j => f.U (ix.I_1k k + j)) (fun j => f.V (ix.I_1k k + j))
      (fun j => f.W (ix.I_1k k + j)) (fun j => bw.X (ix.I_1k k + j)) (fun j => bw.Y (ix.I_1k k + j))
      (fun j => bw.Z (ix.I_1k k + j)) mn (mx k) (hu k) (hd k) (ix.nk k) back
      (fun j => s.h (ix.I_1k k + j)) (fun j => s.Q (ix.i_1k k + j)) := by
  intro f bw s
  have R := numbaSolveInternals_spec f bw mn mx hu hd ix.i_1k ix.I_1k ix.nk ix.NK back s0 L k hk
  have low : ∀ j, j ≤ ix.nk k → s.h (ix.I_1k k + j)
      = (numbaSolveInternals f bw mn mx hu hd ix.i_1k ix.I_1k ix.nk ix.NK back s0).h (ix.I_1k k + j) := by
    intro j hj
    have hge : mn ≤ (numbaSolveInternals f bw mn mx hu hd ix.i_1k ix.I_1k ix.nk ix.NK back s0).h
        (ix.I_1k k + j) := by
      rcases Nat.eq_zero_or_pos j with h0 | h0
      · subst h0; have := R.h0; rw [this]; exact eu
      · rcases Nat.eq_or_lt_of_le hj with h1 | h1
        · subst h1; have := R.hn; rw [this]; exact ed
        · have := R.hs j h0 h0 h1
          rw [this, clipDepth]
          split_ifs <;> first | exact mm | exact le_rfl | (push Not at *; assumption)
    show (if _ < mn then mn else _) = _
    rw [if_neg (not_lt.mpr hge)]
  have n1 := L.pos k hk
  refine ⟨⟨?_, ?_, ?_, ?_⟩, ?_⟩
  · have := R.h0; rw [low 0 (by omega)]; exact this
  · have := R.hn; rw [low _ le_rfl]; exact this
  · intro j h0 h1 h2; have := R.Qs j h0 h1 h2; rw [low _ h2]; exact this
  · intro j h0 h1 h2; have := R.hs j h0 h1 h2; rw [low _ h2.le]; exact this
  · have := R.Q0; rw [low 1 n1]; exact this

omit [IsStrictOrderedRing K] in
/-- **C01.** After the two sweeps and the internal solve, for every superlink whose pivots are
non-zero and whose interior depths came out strictly between the clipping bounds, the reported link
flows and junction depths satisfy the momentum equation of every link and the continuity equation of
every junction assembled in the step, with end depths `h_uk`, `h_dk`.
`Qu`, `Qd` are the flows across the two ends (identified with the reported end flows in
`C01_with_end_flows`, file `SuperlinkProps`). -/
theorem C01_internals_solve_saint_venant (g : K) (co : Coef K) (ix : Idx) (mn : K)
    (mx hu hd : ℕ → K) (back : Bool) (f0 : Fwd K) (b0 : Bwd K) (s0 : HQ K)
    (L : Layout ix.NK ix.nk ix.I_1k ix.i_1k) {k : ℕ} (hk : k < ix.NK)
    (eu : mn ≤ hu k) (ed : mn ≤ hd k) (mm : mn ≤ mx k) :
    let f := sweptFwd g co ix f0
    let bw := sweptBwd g co ix b0
    let s := sweptInternals g co ix mn mx hu hd back f0 b0 s0
    let co' := co.slice (ix.i_1k k) (ix.I_1k k)
    FwdPivots co' (ix.nk k) (fun j => f.T (ix.i_1k k + j)) (fun j => f.U (ix.I_1k k + j)) →
    BwdPivots co' (ix.nk k) (fun j => bw.O (ix.i_1k k + j)) (fun j => bw.X (ix.I_1k k + j)) →
    (∀ j, 1 ≤ j → j < ix.nk k → bw.X (ix.I_1k k + j) ≠ 0) →
    (∀ j, 1 ≤ j → j < ix.nk k → mn < s.h (ix.I_1k k + j) ∧ s.h (ix.I_1k k + j) < mx k) →
    s.h (ix.I_1k k) = hu k ∧ s.h (ix.I_1k k + ix.nk k) = hd k ∧
    ∃ Qu Qd, SaintVenant g co' (ix.nk k) (fun j => s.Q (ix.i_1k k + j))
      (fun j => s.h (ix.I_1k k + j)) Qu Qd := by
  intro f bw s co' fp bp xp strict
  have n1 := L.pos k hk
  have F := sweptFwd_rel g co ix f0 L hk
  have B := sweptBwd_rel g co ix b0 L hk
  have R := sweptInternals_rel g co ix mn mx hu hd back f0 b0 s0 L hk eu ed mm
  obtain ⟨Q', h', Qu, Qd, S, e0, en⟩ := exists_solution n1 F fp (hu k) (hd k)
  obtain ⟨hh, hQ⟩ := internals_eq_solution n1 F B fp bp xp R S e0 en
    (fun j h1 h2 => Or.inr (strict j h1 h2))
  exact ⟨R.h0, R.hn, Qu, Qd, S.congr hh hQ n1⟩

/-- **C01 (physical coefficients).** Same conclusion with the pivots discharged by C02, in the
converse direction too: whenever the exact solution of the difference equations has interior depths
within `[min_depth, max_depth]`, the step returns exactly it. -/
theorem C01_physical (g : K) (co : Coef K) (ix : Idx) (mn : K)
    (mx hu hd : ℕ → K) (back : Bool) (f0 : Fwd K) (b0 : Bwd K) (s0 : HQ K)
    (L : Layout ix.NK ix.nk ix.I_1k ix.i_1k) {k : ℕ} (hk : k < ix.NK)
    (eu : mn ≤ hu k) (ed : mn ≤ hd k) (mm : mn ≤ mx k)
    (ph : Physical g (co.slice (ix.i_1k k) (ix.I_1k k)) (ix.nk k)) :
    let s := sweptInternals g co ix mn mx hu hd back f0 b0 s0
    let co' := co.slice (ix.i_1k k) (ix.I_1k k)
    -- exactly one solution of the difference equations with these end depths exists
    (∃ Q h Qu Qd, SaintVenant g co' (ix.nk k) Q h Qu Qd ∧ h 0 = hu k ∧ h (ix.nk k) = hd k) ∧
    -- unclipped output solves the equations
    ((∀ j, 1 ≤ j → j < ix.nk k → mn < s.h (ix.I_1k k + j) ∧ s.h (ix.I_1k k + j) < mx k) →
      ∃ Qu Qd, SaintVenant g co' (ix.nk k) (fun j => s.Q (ix.i_1k k + j))
        (fun j => s.h (ix.I_1k k + j)) Qu Qd) ∧
    -- a solution within the bounds is returned exactly
    (∀ Q h Qu Qd, SaintVenant g co' (ix.nk k) Q h Qu Qd → h 0 = hu k → h (ix.nk k) = hd k →
      (∀ j, 1 ≤ j → j < ix.nk k → mn ≤ h j ∧ h j ≤ mx k) →
      (∀ j, j ≤ ix.nk k → s.h (ix.I_1k k + j) = h j) ∧
      (∀ j, j < ix.nk k → s.Q (ix.i_1k k + j) = Q j)) := by
  intro s co'
  have n1 := L.pos k hk
  have F := sweptFwd_rel g co ix f0 L hk
  have B := sweptBwd_rel g co ix b0 L hk
  have fp := physical_fwdPivots ph F
  have bp := physical_bwdPivots ph B
  have xp : ∀ j, 1 ≤ j → j < ix.nk k → (sweptBwd g co ix b0).X (ix.I_1k k + j) ≠ 0 :=
    fun j _ h2 => (bwd_signs ph B j h2).2.2.1.ne'
  have R := sweptInternals_rel g co ix mn mx hu hd back f0 b0 s0 L hk eu ed mm
  refine ⟨exists_solution n1 F fp (hu k) (hd k), fun strict => ?_, ?_⟩
  · exact (C01_internals_solve_saint_venant g co ix mn mx hu hd back f0 b0 s0 L hk eu ed mm
      fp bp xp strict).2.2
  · intro Q h Qu Qd S e0 en mem
    exact internals_eq_solution n1 F B fp bp xp R S e0 en
      (fun j h1 h2 => Or.inl (clip_eq_of_mem (mem j h1 h2).1 (mem j h1 h2).2))

/-! ### C10: depth bounds -/

omit [IsStrictOrderedRing K] in
/-- **C10 (one step).** After a step every junction depth is at least `min_depth`, and every interior
junction depth of every superlink is at most that superlink's `max_depth` (or `min_depth` when the
user gave a smaller maximum) — from any arrays whatsoever, and for arbitrary coefficients. -/
theorem C10_depth_bounds (f : Fwd K) (bw : Bwd K) (ix : Idx) (mn : K) (mx hu hd : ℕ → K) (back : Bool)
    (s0 : HQ K) (L : Layout ix.NK ix.nk ix.I_1k ix.i_1k) :
    let s := solveInternals f bw mn mx hu hd ix.i_1k ix.I_1k ix.nk ix.NK back s0
    (∀ I, mn ≤ s.h I) ∧
    (∀ k, k < ix.NK → ∀ j, 1 ≤ j → j < ix.nk k → s.h (ix.I_1k k + j) ≤ max mn (mx k)) := by
  intro s
  refine ⟨fun I => ?_, fun k hk j h1 h2 => ?_⟩
  · show mn ≤ (if _ < mn then mn else _)
    split_ifs with hlt
    · exact le_rfl
    · exact not_lt.mp hlt
  · have R := numbaSolveInternals_spec f bw mn mx hu hd ix.i_1k ix.I_1k ix.nk ix.NK back s0 L k hk
    have := R.hs j h1 h1 h2
    show (if _ < mn then mn else _) ≤ _
    split_ifs with hlt
    · exact le_max_left _ _
    · rw [this, clipDepth]
      split_ifs <;> first
        | exact le_max_right _ _ | exact le_max_left _ _ | (push Not at *; exact le_trans ‹_› (le_max_right _ _))

/-! ### C03: superlinks do not interfere -/

omit [IsStrictOrderedRing K] in
theorem fwdRel_unique {g : K} {co : Coef K} {n : ℕ} {T U V W T' U' V' W' : ℕ → K}
    (R : FwdRel g co n T U V W) (R' : FwdRel g co n T' U' V' W') :
    ∀ j, j < n → T j = T' j ∧ U j = U' j ∧ V j = V' j ∧ W j = W' j := by
  intro j
  induction j with
  | zero =>
    intro _
    have e : T 0 = T' 0 := by rw [R.T0, R'.T0]
    exact ⟨e, by rw [R.U0, R'.U0, e], by rw [R.V0, R'.V0, e], by rw [R.W0, R'.W0, e]⟩
  | succ j ih =>
    intro hj
    obtain ⟨-, u, v, w⟩ := ih (by omega)
    have e : T (j+1) = T' (j+1) := by rw [R.Ts j hj, R'.Ts j hj, u]
    exact ⟨e, by rw [R.Us j hj, R'.Us j hj, e], by rw [R.Vs j hj, R'.Vs j hj, u, v, e],
      by rw [R.Ws j hj, R'.Ws j hj, u, w, e]⟩

omit [IsStrictOrderedRing K] in
theorem bwdRel_unique {g : K} {co : Coef K} {n : ℕ} {O X Y Z O' X' Y' Z' : ℕ → K}
    (R : BwdRel g co n O X Y Z) (R' : BwdRel g co n O' X' Y' Z') :
    ∀ j, j < n → O j = O' j ∧ X j = X' j ∧ Y j = Y' j ∧ Z j = Z' j := by
  suffices H : ∀ m, ∀ j, j + m + 1 = n → O j = O' j ∧ X j = X' j ∧ Y j = Y' j ∧ Z j = Z' j by
    intro j hj; exact H (n - 1 - j) j (by omega)
  intro m
  induction m with
  | zero =>
    intro j hj
    obtain rfl : j = n - 1 := by omega
    have e : O (n-1) = O' (n-1) := by rw [R.On, R'.On]
    exact ⟨e, by rw [R.Xn, R'.Xn, e], by rw [R.Yn, R'.Yn, e], by rw [R.Zn, R'.Zn, e]⟩
  | succ m ih =>
    intro j hj
    have hj1 : j + 1 < n := by omega
    obtain ⟨-, x, y, z⟩ := ih (j+1) (by omega)
    have e : O j = O' j := by rw [R.Os j (by omega) hj1, R'.Os j (by omega) hj1, x]
    exact ⟨e, by rw [R.Xs j (by omega) hj1, R'.Xs j (by omega) hj1, e],
      by rw [R.Ys j (by omega) hj1, R'.Ys j (by omega) hj1, x, y, e],
      by rw [R.Zs j (by omega) hj1, R'.Zs j (by omega) hj1, x, z, e]⟩

omit [IsStrictOrderedRing K] in
theorem intRel_unique {U V W X Y Z U' V' W' X' Y' Z' : ℕ → K} {mn mx hu hd : K} {n : ℕ} {back : Bool}
    {h Q h' Q' : ℕ → K} (hn : 1 ≤ n)
    (ef : ∀ j, j < n → U j = U' j ∧ V j = V' j ∧ W j = W' j)
    (eb : ∀ j, j < n → X j = X' j ∧ Y j = Y' j ∧ Z j = Z' j)
    (R : IntRel U V W X Y Z mn mx hu hd n back h Q)
    (R' : IntRel U' V' W' X' Y' Z' mn mx hu hd n back h' Q') :
    (∀ j, j ≤ n → h j = h' j) ∧ (∀ j, j < n → Q j = Q' j) := by
  have main : ∀ m, ∀ j, j + m = n → 1 ≤ j → h j = h' j ∧ (j < n → Q j = Q' j) := by
    intro m
    induction m with
    | zero => intro j hj _
              obtain rfl : j = n := by omega
              exact ⟨by rw [R.hn, R'.hn], fun h => absurd h (lt_irrefl _)⟩
    | succ m ih =>
      intro j hj h1
      have hjn : j < n := by omega
      have nx := (ih (j+1) (by omega) (by omega)).1
      obtain ⟨u, v, w⟩ := ef j hjn
      obtain ⟨x, y, z⟩ := eb j hjn
      have q : Q j = Q' j := by rw [R.Qs j h1 h1 hjn, R'.Qs j h1 h1 hjn, nx, u, v, w]
      exact ⟨by rw [R.hs j h1 h1 hjn, R'.hs j h1 h1 hjn, q, x, y, z], fun _ => q⟩
  have hall : ∀ j, j ≤ n → h j = h' j := by
    intro j hj
    rcases Nat.eq_zero_or_pos j with h0 | h0
    · subst h0; rw [R.h0, R'.h0]
    · exact (main (n - j) j (by omega) h0).1
  refine ⟨hall, fun j hj => ?_⟩
  rcases Nat.eq_zero_or_pos j with h0 | h0
  · subst h0
    obtain ⟨u, v, w⟩ := ef 0 hj
    obtain ⟨x, y, z⟩ := eb 0 hj
    rw [R.Q0, R'.Q0, hall 1 hj, u, v, w, x, y, z]
  · exact (main (n - j) j (by omega) h0).2 hj

omit [IsStrictOrderedRing K] in
/-- **C03.** Take two networks `ix`, `ix'` (any number of superlinks, any lengths, any consecutive or
other disjoint layout, any coefficients) and one superlink of each, `k` and `k'`, having the same
number of links, the same coefficients on their own links and junctions and the same bounds and end
depths. Then the internal depths and flows the two computations return for these superlinks are the
same, whatever the other superlinks contain and whatever the arrays held before. -/
theorem C03_superlinks_independent (g mn : K) (back : Bool)
    (co : Coef K) (ix : Idx) (mx hu hd : ℕ → K) (f0 : Fwd K) (b0 : Bwd K) (s0 : HQ K)
    (L : Layout ix.NK ix.nk ix.I_1k ix.i_1k) {k : ℕ} (hk : k < ix.NK)
    (co' : Coef K) (ix' : Idx) (mx' hu' hd' : ℕ → K) (f0' : Fwd K) (b0' : Bwd K) (s0' : HQ K)
    (L' : Layout ix'.NK ix'.nk ix'.I_1k ix'.i_1k) {k' : ℕ} (hk' : k' < ix'.NK)
    (hn : ix.nk k = ix'.nk k')
    (hco : co.slice (ix.i_1k k) (ix.I_1k k) = co'.slice (ix'.i_1k k') (ix'.I_1k k'))
    (hmx : mx k = mx' k') (hhu : hu k = hu' k') (hhd : hd k = hd' k') :
    let s := sweptInternals g co ix mn mx hu hd back f0 b0 s0
    let s' := sweptInternals g co' ix' mn mx' hu' hd' back f0' b0' s0'
    (∀ j, j ≤ ix.nk k → s.h (ix.I_1k k + j) = s'.h (ix'.I_1k k' + j)) ∧
    (∀ j, j < ix.nk k → s.Q (ix.i_1k k + j) = s'.Q (ix'.i_1k k' + j)) := by
  intro s s'
  have F := sweptFwd_rel g co ix f0 L hk
  have B := sweptBwd_rel g co ix b0 L hk
  have F' := sweptFwd_rel g co' ix' f0' L' hk'
  have B' := sweptBwd_rel g co' ix' b0' L' hk'
  simp only [← hco, ← hn] at F' B'
  have eF := fwdRel_unique F F'
  have eB := bwdRel_unique B B'
  have R := numbaSolveInternals_spec (sweptFwd g co ix f0) (sweptBwd g co ix b0) mn mx hu hd
    ix.i_1k ix.I_1k ix.nk ix.NK back s0 L k hk
  have R' := numbaSolveInternals_spec (sweptFwd g co' ix' f0') (sweptBwd g co' ix' b0') mn mx' hu' hd'
    ix'.i_1k ix'.I_1k ix'.nk ix'.NK back s0' L' k' hk'
  simp only [← hmx, ← hhu, ← hhd, ← hn] at R'
  obtain ⟨eh, eQ⟩ := intRel_unique (L.pos k hk) (fun j hj => (eF j hj).2) (fun j hj => (eB j hj).2) R R'
  refine ⟨fun j hj => ?_, eQ⟩
  have := eh j hj
  show (if _ < mn then mn else _) = (if _ < mn then mn else _)
  rw [this]

/-! ### Non-vacuity: a concrete network of two superlinks with 3 and 2 links -/

/-- Two superlinks: 3 links / 4 junctions, then 2 links / 3 junctions. -/
def exIdx : Idx where
  NK := 2
  nk k := if k = 0 then 3 else 2
  I_1k k := if k = 0 then 0 else 4
  i_1k k := if k = 0 then 0 else 3

example : Layout exIdx.NK exIdx.nk exIdx.I_1k exIdx.i_1k := by
  refine ⟨?_, ?_, ?_⟩ <;> simp only [exIdx]
  · intro k _; split_ifs <;> omega
  · intro k k' h h' hne j j' hj hj'; split_ifs at * <;> omega
  · intro k k' h h' hne j j' hj hj'; split_ifs at * <;> omega

/-- Constant coefficients `a = c = -1, b = 5, A = 2, E = 1, P = 0, D = 1`. -/
def exCo : Coef ℚ := ⟨fun _ => -1, fun _ => 5, fun _ => -1, fun _ => 0, fun _ => 2, fun _ => 1, fun _ => 1⟩

example : Physical (10 : ℚ) (exCo.slice 0 0) 3 := by
  refine ⟨by norm_num, ?_, ?_, ?_, ?_, ?_⟩ <;> intros <;> norm_num [exCo, Coef.slice]

end Pipedream.Sweep
