import Verif.InternalsLemmas

/-! # Algebra of the elimination: signs, soundness, existence, uniqueness -/

namespace Pipedream.Sweep

variable {K : Type*} [Field K] [LinearOrder K] [IsStrictOrderedRing K]

/-! ### Signs -/

theorem num_pos {g A E a : K} (hg : 0 < g) (hA : 0 < A) (hE : 0 ≤ E) (ha : a ≤ 0) :
    0 < g * A - E * a := by
  have h1 : 0 < g * A := mul_pos hg hA
  have h2 : E * a ≤ 0 := mul_nonpos_of_nonneg_of_nonpos hE ha
  linarith

theorem fwd_signs {g : K} {co : Coef K} {n : ℕ} {T U V W : ℕ → K} (ph : Physical g co n)
    (R : FwdRel g co n T U V W) :
    ∀ j, j < n → co.a j + co.b j + co.c j ≤ T j ∧ 0 < T j ∧ U j < 0 ∧ 0 < W j := by
  intro j
  induction j with
  | zero =>
    intro hj
    have hT := R.T0
    have hTpos : 0 < T 0 := by rw [hT]; exact ph.abc_pos 0 hj
    refine ⟨by rw [hT]; rfl, hTpos, ?_, ?_⟩
    · rw [R.U0, U_1k, safeDivide_eq]
      apply div_neg_of_neg_of_pos _ hTpos
      have := num_pos ph.g_pos (ph.A_pos 0 hj) (ph.E_nonneg 1 (by omega)) (ph.c_nonpos 0 hj)
      linarith
    · rw [R.W0, W_1k, safeDivide_eq]
      exact div_pos (num_pos ph.g_pos (ph.A_pos 0 hj) (ph.E_nonneg 0 (by omega)) (ph.a_nonpos 0 hj))
        hTpos
  | succ j ih =>
    intro hj
    obtain ⟨-, -, hU, hW⟩ := ih (by omega)
    have hden : U j - co.E (j+1) < 0 := by
      have := ph.E_nonneg (j+1) (by omega); linarith
    have hnum := num_pos ph.g_pos (ph.A_pos (j+1) hj) (ph.E_nonneg (j+1) (by omega))
      (ph.a_nonpos (j+1) hj)
    have hT : co.a (j+1) + co.b (j+1) + co.c (j+1) ≤ T (j+1) := by
      rw [R.Ts j hj, T_ik]
      simp only [safeDivide_eq]
      have := div_neg_of_pos_of_neg hnum hden
      linarith
    have hTpos : 0 < T (j+1) := lt_of_lt_of_le (ph.abc_pos (j+1) hj) hT
    refine ⟨hT, hTpos, ?_, ?_⟩
    · rw [R.Us j hj, U_Ik, safeDivide_eq]
      apply div_neg_of_neg_of_pos _ hTpos
      have := num_pos ph.g_pos (ph.A_pos (j+1) hj) (ph.E_nonneg (j+2) (by omega))
        (ph.c_nonpos (j+1) hj)
      linarith
    · rw [R.Ws j hj, W_Ik, safeDivide_eq]
      apply div_pos_of_neg_of_neg
      · have := mul_pos hnum hW; linarith
      · exact mul_neg_of_neg_of_pos hden hTpos

theorem bwd_signs {g : K} {co : Coef K} {n : ℕ} {O X Y Z : ℕ → K} (ph : Physical g co n)
    (R : BwdRel g co n O X Y Z) :
    ∀ j, j < n → co.a j + co.b j + co.c j ≤ O j ∧ 0 < O j ∧ 0 < X j ∧ Z j < 0 := by
  suffices h : ∀ m, ∀ j, j + m + 1 = n →
      co.a j + co.b j + co.c j ≤ O j ∧ 0 < O j ∧ 0 < X j ∧ Z j < 0 by
    intro j hj; exact h (n - 1 - j) j (by omega)
  intro m
  induction m with
  | zero =>
    intro j hj
    obtain rfl : j = n - 1 := by omega
    have hjn : n - 1 < n := by omega
    have hO := R.On
    have hOpos : 0 < O (n-1) := by rw [hO]; exact ph.abc_pos _ hjn
    refine ⟨by rw [hO]; rfl, hOpos, ?_, ?_⟩
    · rw [R.Xn, X_Nk, safeDivide_eq]
      exact div_pos (num_pos ph.g_pos (ph.A_pos _ hjn) (ph.E_nonneg _ (by omega))
        (ph.a_nonpos _ hjn)) hOpos
    · rw [R.Zn, Z_Nk, safeDivide_eq]
      apply div_neg_of_neg_of_pos _ hOpos
      have := num_pos ph.g_pos (ph.A_pos _ hjn) (ph.E_nonneg n le_rfl) (ph.c_nonpos _ hjn)
      linarith
  | succ m ih =>
    intro j hj
    obtain ⟨-, -, hX, hZ⟩ := ih (j+1) (by omega)
    have hj1 : j + 1 < n := by omega
    have hjn : j < n := by omega
    have hden : 0 < X (j+1) + co.E (j+1) := by
      have := ph.E_nonneg (j+1) (by omega); linarith
    have hnum := num_pos ph.g_pos (ph.A_pos j hjn) (ph.E_nonneg (j+1) (by omega))
      (ph.c_nonpos j hjn)
    have hO : co.a j + co.b j + co.c j ≤ O j := by
      rw [R.Os j (by omega) hj1, O_ik]
      simp only [safeDivide_eq]
      have := div_pos hnum hden
      linarith
    have hOpos : 0 < O j := lt_of_lt_of_le (ph.abc_pos j hjn) hO
    refine ⟨hO, hOpos, ?_, ?_⟩
    · rw [R.Xs j (by omega) hj1, X_Ik, safeDivide_eq]
      exact div_pos (num_pos ph.g_pos (ph.A_pos j hjn) (ph.E_nonneg j (by omega))
        (ph.a_nonpos j hjn)) hOpos
    · rw [R.Zs j (by omega) hj1, Z_Ik, safeDivide_eq]
      exact div_neg_of_neg_of_pos (mul_neg_of_pos_of_neg hnum hZ) (mul_pos hden hOpos)

/-! ### Elimination is sound -/

omit [LinearOrder K] [IsStrictOrderedRing K] in
theorem qIn_succ (Q : ℕ → K) (Qu : K) (i : ℕ) : qIn Q Qu (i + 1) = Q i := by simp [qIn]

omit [LinearOrder K] [IsStrictOrderedRing K] in
theorem qIn_zero (Q : ℕ → K) (Qu : K) : qIn Q Qu 0 = Qu := by simp [qIn]

omit [LinearOrder K] [IsStrictOrderedRing K] in
theorem qOut_lt {n : ℕ} (Q : ℕ → K) (Qd : K) {i : ℕ} (h : i < n) : qOut n Q Qd i = Q i := by
  simp [qOut, Nat.ne_of_lt h]

omit [LinearOrder K] [IsStrictOrderedRing K] in
theorem qOut_end {n : ℕ} (Q : ℕ → K) (Qd : K) : qOut n Q Qd n = Qd := by simp [qOut]

omit [LinearOrder K] [IsStrictOrderedRing K] in
/-- Momentum with the neighbouring flows eliminated through continuity. -/
theorem SaintVenant.reduced {g : K} {co : Coef K} {n : ℕ} {Q h : ℕ → K} {Qu Qd : K}
    (S : SaintVenant g co n Q h Qu Qd) {i : ℕ} (hi : i < n) :
    (co.a i + co.b i + co.c i) * Q i
      = co.P i + co.a i * co.D i - co.D (i+1) * co.c i + (g * co.A i - co.E i * co.a i) * h i
        + (co.E (i+1) * co.c i - g * co.A i) * h (i+1) := by
  have m := S.momentum i hi
  have c0 := S.continuity i hi.le
  have c1 := S.continuity (i+1) hi
  rw [qOut_lt Q Qd hi] at c0
  rw [qIn_succ] at c1
  linear_combination m + co.a i * c0 - co.c i * c1

/-- Nonzero pivots of the forward sweep. -/
def FwdPivots (co : Coef K) (n : ℕ) (T U : ℕ → K) : Prop :=
  (∀ j, j < n → T j ≠ 0) ∧ (∀ j, j + 1 < n → U j - co.E (j+1) ≠ 0)

/-- Nonzero pivots of the backward sweep. -/
def BwdPivots (co : Coef K) (n : ℕ) (O X : ℕ → K) : Prop :=
  (∀ j, j < n → O j ≠ 0) ∧ (∀ j, j + 1 < n → X (j+1) + co.E (j+1) ≠ 0)

omit [IsStrictOrderedRing K] in
theorem fwd_sound {g : K} {co : Coef K} {n : ℕ} {T U V W Q h : ℕ → K} {Qu Qd : K}
    (R : FwdRel g co n T U V W) (pv : FwdPivots co n T U) (S : SaintVenant g co n Q h Qu Qd) :
    ∀ j, j < n → Q j = U j * h (j+1) + V j + W j * h 0 := by
  intro j
  induction j with
  | zero =>
    intro hj
    have hT := pv.1 0 hj
    have r := S.reduced hj
    have e : T 0 = co.a 0 + co.b 0 + co.c 0 := R.T0
    rw [R.U0, R.V0, R.W0, U_1k, V_1k, W_1k, safeDivide_eq, safeDivide_eq, safeDivide_eq]
    rw [← e] at r
    field_simp
    linear_combination r
  | succ j ih =>
    intro hj
    have ihj := ih (by omega)
    have hT := pv.1 (j+1) hj
    have hd := pv.2 j hj
    have r := S.reduced hj
    have c1 := S.continuity (j+1) hj.le
    rw [qIn_succ, qOut_lt Q Qd hj] at c1
    have e : T (j+1) = co.a (j+1) + co.b (j+1) + co.c (j+1)
        - (g * co.A (j+1) - co.E (j+1) * co.a (j+1)) / (U j - co.E (j+1)) := by
      rw [R.Ts j hj, T_ik]; simp only [safeDivide_eq]
    -- h (j+1) from continuity and the previous relation
    have hh : (U j - co.E (j+1)) * h (j+1) = Q (j+1) - co.D (j+1) - V j - W j * h 0 := by
      linear_combination - c1 - ihj
    have hh' : h (j+1) = (Q (j+1) - co.D (j+1) - V j - W j * h 0) / (U j - co.E (j+1)) := by
      rw [← hh]; field_simp
    rw [R.Us j hj, R.Vs j hj, R.Ws j hj, U_Ik, V_Ik, W_Ik]
    simp only [safeDivide_eq]
    have key : T (j+1) * Q (j+1) = (co.E (j+1+1) * co.c (j+1) - g * co.A (j+1)) * h (j+1+1)
        + (co.P (j+1) + co.a (j+1) * co.D (j+1) - co.D (j+1+1) * co.c (j+1)
          - (g * co.A (j+1) - co.E (j+1) * co.a (j+1)) * (V j + co.D (j+1)) / (U j - co.E (j+1)))
        - (g * co.A (j+1) - co.E (j+1) * co.a (j+1)) * W j / (U j - co.E (j+1)) * h 0 := by
      rw [e]
      rw [hh'] at r
      linear_combination r
    have e2 : Q (j+1) = (T (j+1) * Q (j+1)) / T (j+1) := by field_simp
    rw [e2, key]
    field_simp
    ring

omit [IsStrictOrderedRing K] in
theorem bwd_sound {g : K} {co : Coef K} {n : ℕ} {O X Y Z Q h : ℕ → K} {Qu Qd : K}
    (R : BwdRel g co n O X Y Z) (pv : BwdPivots co n O X) (S : SaintVenant g co n Q h Qu Qd) :
    ∀ j, j < n → Q j = X j * h j + Y j + Z j * h n := by
  suffices H : ∀ m, ∀ j, j + m + 1 = n → Q j = X j * h j + Y j + Z j * h n by
    intro j hj; exact H (n - 1 - j) j (by omega)
  intro m
  induction m with
  | zero =>
    intro j hj
    obtain rfl : j = n - 1 := by omega
    have hjn : n - 1 < n := by omega
    have hO := pv.1 _ hjn
    have r := S.reduced hjn
    have e : O (n-1) = co.a (n-1) + co.b (n-1) + co.c (n-1) := R.On
    have en : n - 1 + 1 = n := by omega
    rw [en] at r
    rw [R.Xn, R.Yn, R.Zn, X_Nk, Y_Nk, Z_Nk, safeDivide_eq, safeDivide_eq, safeDivide_eq]
    rw [← e] at r
    field_simp
    linear_combination r
  | succ m ih =>
    intro j hj
    have hj1 : j + 1 < n := by omega
    have hjn : j < n := by omega
    have ihj := ih (j+1) (by omega)
    have hO := pv.1 j hjn
    have hd := pv.2 j hj1
    have r := S.reduced hjn
    have c1 := S.continuity (j+1) hj1.le
    rw [qIn_succ, qOut_lt Q Qd hj1] at c1
    have e : O j = co.a j + co.b j + co.c j
        + (g * co.A j - co.E (j+1) * co.c j) / (X (j+1) + co.E (j+1)) := by
      rw [R.Os j (by omega) hj1, O_ik]; simp only [safeDivide_eq]
    have hh : (X (j+1) + co.E (j+1)) * h (j+1) = Q j + co.D (j+1) - Y (j+1) - Z (j+1) * h n := by
      linear_combination c1 - ihj
    have hh' : h (j+1) = (Q j + co.D (j+1) - Y (j+1) - Z (j+1) * h n) / (X (j+1) + co.E (j+1)) := by
      rw [← hh]; field_simp
    rw [R.Xs j (by omega) hj1, R.Ys j (by omega) hj1, R.Zs j (by omega) hj1, X_Ik, Y_Ik, Z_Ik]
    simp only [safeDivide_eq]
    have key : O j * Q j = (g * co.A j - co.E j * co.a j) * h j
        + (co.P j + co.a j * co.D j - co.D (j+1) * co.c j
          - (g * co.A j - co.E (j+1) * co.c j) * (co.D (j+1) - Y (j+1)) / (X (j+1) + co.E (j+1)))
        + (g * co.A j - co.E (j+1) * co.c j) * Z (j+1) / (X (j+1) + co.E (j+1)) * h n := by
      rw [e]
      rw [hh'] at r
      linear_combination r
    have e2 : Q j = (O j * Q j) / O j := by field_simp
    rw [e2, key]
    field_simp

/-! ### A solution exists for every pair of end depths -/

/-- Depths by back substitution from the downstream end: entry `m` is the depth at junction
`n - m`. (Proof device, not in the code: the code uses the backward coefficients instead.) -/
def backH (co : Coef K) (U V W : ℕ → K) (n : ℕ) (hu hd : K) : ℕ → K
  | 0 => hd
  | m + 1 =>
    let j := n - (m + 1)
    if j = 0 then hu else
    (U j * backH co U V W n hu hd m + V j + W j * hu - co.D j - V (j-1) - W (j-1) * hu)
      / (U (j-1) - co.E j)

omit [IsStrictOrderedRing K] in
theorem exists_solution {g : K} {co : Coef K} {n : ℕ} {T U V W : ℕ → K} (hn : 1 ≤ n)
    (R : FwdRel g co n T U V W) (pv : FwdPivots co n T U) (hu hd : K) :
    ∃ Q h : ℕ → K, ∃ Qu Qd : K, SaintVenant g co n Q h Qu Qd ∧ h 0 = hu ∧ h n = hd := by
  let h : ℕ → K := fun j => backH co U V W n hu hd (n - j)
  have h_n : h n = hd := by simp [h, backH]
  have h_0 : h 0 = hu := by
    obtain ⟨m, rfl⟩ : ∃ m, n = m + 1 := ⟨n - 1, by omega⟩
    simp [h, backH]
  let Q : ℕ → K := fun j => U j * h (j+1) + V j + W j * hu
  have h_rec : ∀ j, j + 1 < n → (U j - co.E (j+1)) * h (j+1)
      = Q (j+1) - co.D (j+1) - V j - W j * hu := by
    intro j hj
    have hp := pv.2 j hj
    have e : n - (j+1) = (n - (j+2)) + 1 := by omega
    have : h (j+1) = (U (j+1) * h (j+2) + V (j+1) + W (j+1) * hu - co.D (j+1) - V j - W j * hu)
        / (U j - co.E (j+1)) := by
      simp only [h]
      rw [e, backH]
      have e2 : n - (n - (j+2) + 1) = j + 1 := by omega
      simp only [e2]
      rw [if_neg (by omega)]
      simp
    rw [this]
    field_simp
    simp only [Q]
  let Qu : K := Q 0 + co.E 0 * h 0 - co.D 0
  let Qd : K := Q (n-1) - co.E n * h n + co.D n
  have cont : ∀ I, I ≤ n → qOut n Q Qd I - qIn Q Qu I + co.E I * h I = co.D I := by
    intro I hI
    rcases Nat.eq_zero_or_pos I with h0 | hpos
    · subst h0
      rw [qIn_zero, qOut_lt Q Qd hn]; simp only [Qu]; ring
    · obtain ⟨j, rfl⟩ : ∃ j, I = j + 1 := ⟨I - 1, by omega⟩
      rw [qIn_succ]
      rcases Nat.eq_or_lt_of_le hI with h1 | h1
      · subst h1; rw [qOut_end]; simp only [Qd]; simp; ring
      · rw [qOut_lt Q Qd h1]
        have := h_rec j h1
        have hq : Q j = U j * h (j+1) + V j + W j * hu := rfl
        linear_combination - this - hq
  refine ⟨Q, h, Qu, Qd, ⟨?_, cont⟩, h_0, h_n⟩
  intro i hi
  -- the reduced momentum equation
  have red : (co.a i + co.b i + co.c i) * Q i
      = co.P i + co.a i * co.D i - co.D (i+1) * co.c i + (g * co.A i - co.E i * co.a i) * h i
        + (co.E (i+1) * co.c i - g * co.A i) * h (i+1) := by
    cases i with
    | zero =>
      have hT := pv.1 0 hi
      have e : T 0 = co.a 0 + co.b 0 + co.c 0 := R.T0
      have hq : Q 0 = U 0 * h 1 + V 0 + W 0 * hu := rfl
      rw [R.U0, R.V0, R.W0, U_1k, V_1k, W_1k, safeDivide_eq, safeDivide_eq, safeDivide_eq] at hq
      rw [← e, hq, h_0]
      field_simp
      ring
    | succ j =>
      have hT := pv.1 (j+1) hi
      have hd' := pv.2 j hi
      have e : T (j+1) = co.a (j+1) + co.b (j+1) + co.c (j+1)
          - (g * co.A (j+1) - co.E (j+1) * co.a (j+1)) / (U j - co.E (j+1)) := by
        rw [R.Ts j hi, T_ik]; simp only [safeDivide_eq]
      have hq : Q (j+1) = U (j+1) * h (j+2) + V (j+1) + W (j+1) * hu := rfl
      have hr := h_rec j hi
      have hr' : h (j+1) = (Q (j+1) - co.D (j+1) - V j - W j * hu) / (U j - co.E (j+1)) := by
        rw [← hr]; field_simp
      have key : T (j+1) * Q (j+1) = (co.E (j+2) * co.c (j+1) - g * co.A (j+1)) * h (j+2)
          + (co.P (j+1) + co.a (j+1) * co.D (j+1) - co.D (j+2) * co.c (j+1)
            - (g * co.A (j+1) - co.E (j+1) * co.a (j+1)) * (V j + co.D (j+1)) / (U j - co.E (j+1)))
          - (g * co.A (j+1) - co.E (j+1) * co.a (j+1)) * W j / (U j - co.E (j+1)) * hu := by
        rw [hq, R.Us j hi, R.Vs j hi, R.Ws j hi, U_Ik, V_Ik, W_Ik]
        simp only [safeDivide_eq]
        field_simp
        ring
      rw [e] at key
      rw [hr']
      linear_combination key
  have c0 := cont i hi.le
  have c1 := cont (i+1) hi
  rw [qOut_lt Q Qd hi] at c0
  rw [qIn_succ] at c1
  linear_combination red - co.a i * c0 + co.c i * c1

/-! ### Uniqueness -/

omit [IsStrictOrderedRing K] in
/-- Two solutions with the same end depths agree at all links and junctions. -/
theorem solution_unique {g : K} {co : Coef K} {n : ℕ} {T U V W : ℕ → K} (hn : 1 ≤ n)
    (R : FwdRel g co n T U V W) (pv : FwdPivots co n T U)
    {Q h Q' h' : ℕ → K} {Qu Qd Qu' Qd' : K}
    (S : SaintVenant g co n Q h Qu Qd) (S' : SaintVenant g co n Q' h' Qu' Qd')
    (e0 : h 0 = h' 0) (en : h n = h' n) :
    (∀ j, j < n → Q j = Q' j) ∧ (∀ I, I ≤ n → h I = h' I) ∧ Qu = Qu' ∧ Qd = Qd' := by
  have f := fwd_sound R pv S
  have f' := fwd_sound R pv S'
  have hh : ∀ m, ∀ j, j + m = n → 1 ≤ j → h j = h' j := by
    intro m
    induction m with
    | zero => intro j hj _; obtain rfl : j = n := by omega
              exact en
    | succ m ih =>
      intro j hj hj1
      obtain ⟨i, rfl⟩ : ∃ i, j = i + 1 := ⟨j - 1, by omega⟩
      have hi : i + 1 < n := by omega
      have nx := ih (i+2) (by omega) (by omega)
      have hp := pv.2 i hi
      have c := S.continuity (i+1) hi.le
      have c' := S'.continuity (i+1) hi.le
      rw [qIn_succ, qOut_lt _ _ hi] at c c'
      have q1 := f (i+1) hi
      have q1' := f' (i+1) hi
      have q0 := f i (by omega)
      have q0' := f' i (by omega)
      rw [nx] at q1
      rw [e0] at q0 q1
      have : (U i - co.E (i+1)) * (h (i+1) - h' (i+1)) = 0 := by
        linear_combination q1 - q1' - q0 + q0' - c + c'
      have := (mul_eq_zero.mp this).resolve_left hp
      exact sub_eq_zero.mp this
  have hall : ∀ I, I ≤ n → h I = h' I := by
    intro I hI
    rcases Nat.eq_zero_or_pos I with h0 | h0
    · subst h0; exact e0
    · exact hh (n - I) I (by omega) h0
  have Qall : ∀ j, j < n → Q j = Q' j := by
    intro j hj
    rw [f j hj, f' j hj, hall (j+1) hj, e0]
  refine ⟨Qall, hall, ?_, ?_⟩
  · have c := S.continuity 0 (by omega)
    have c' := S'.continuity 0 (by omega)
    rw [qIn_zero, qOut_lt _ _ hn] at c c'
    rw [e0, Qall 0 hn] at c
    linear_combination c' - c
  · have c := S.continuity n le_rfl
    have c' := S'.continuity n le_rfl
    obtain ⟨m, rfl⟩ : ∃ m, n = m + 1 := ⟨n - 1, by omega⟩
    rw [qIn_succ, qOut_end] at c c'
    rw [en, Qall m (by omega)] at c
    linear_combination c - c'

end Pipedream.Sweep
