import Verif.EndLossProps
import Verif.SteadyProps

/-!
# C209: a pipe divided by a superjunction

Two superlinks that meet at a superjunction with no losses at the two ends are one pipe with a manhole in it.  The
results of a step solve the equations of the undivided superlink, in which the joint is an interior junction that
stores what the two end cells and the superjunction store — apart from two advection terms, which take the flow at
the joint where the undivided superlink takes the flow of the next link.  The theorem states exactly when the terms
vanish; in steady flow they do.
-/

namespace Pipedream.Sweep

variable {K : Type*} [Field K] [LinearOrder K]

/-! ### Specification -/

/-- The coefficients of the undivided superlink: those of the parts one after the other; at the joint the storage of
both end cells and of the superjunction (`S` per unit of depth, `R` what it held or receives). -/
def Coef.join (n₁ : ℕ) (c₁ c₂ : Coef K) (S R : K) : Coef K where
  a i := if i < n₁ then c₁.a i else c₂.a (i - n₁)
  b i := if i < n₁ then c₁.b i else c₂.b (i - n₁)
  c i := if i < n₁ then c₁.c i else c₂.c (i - n₁)
  P i := if i < n₁ then c₁.P i else c₂.P (i - n₁)
  A i := if i < n₁ then c₁.A i else c₂.A (i - n₁)
  E I := if I < n₁ then c₁.E I else if I = n₁ then c₁.E n₁ + c₂.E 0 + S else c₂.E (I - n₁)
  D I := if I < n₁ then c₁.D I else if I = n₁ then c₁.D n₁ + c₂.D 0 + R else c₂.D (I - n₁)

/-- Link values of the parts one after the other. -/
def joinQ (n₁ : ℕ) (Q₁ Q₂ : ℕ → K) (i : ℕ) : K := if i < n₁ then Q₁ i else Q₂ (i - n₁)

/-- Junction values of the parts one after the other; the joint is listed once. -/
def joinH (n₁ : ℕ) (h₁ h₂ : ℕ → K) (I : ℕ) : K := if I ≤ n₁ then h₁ I else h₂ (I - n₁)

variable {g : K} {c₁ c₂ : Coef K} {n₁ n₂ : ℕ} {Q₁ h₁ Q₂ h₂ : ℕ → K} {Qu₁ Qd₁ Qu₂ Qd₂ S R : K}

omit [LinearOrder K] in
/-- **C209 (the equations).** Two superlinks whose depths agree at the joint, and whose end flows there differ by what the
superjunction stores: together they solve the equations of the undivided superlink exactly if the advection terms do
not notice the difference between the flow at the joint and the flow of the next link. -/
theorem C209_equations (p₁ : 1 ≤ n₁) (p₂ : 1 ≤ n₂)
    (s₁ : SaintVenant g c₁ n₁ Q₁ h₁ Qu₁ Qd₁) (s₂ : SaintVenant g c₂ n₂ Q₂ h₂ Qu₂ Qd₂)
    (e : h₁ n₁ = h₂ 0) (bal : Qd₁ - Qu₂ = S * h₂ 0 - R) :
    SaintVenant g (c₁.join n₁ c₂ S R) (n₁ + n₂) (joinQ n₁ Q₁ Q₂) (joinH n₁ h₁ h₂) Qu₁ Qd₂ ↔
      c₁.c (n₁ - 1) * (Qd₁ - Q₂ 0) = 0 ∧ c₂.a 0 * (Qu₂ - Q₁ (n₁ - 1)) = 0 := by
  obtain ⟨k, rfl⟩ : ∃ k, n₁ = k + 1 := ⟨n₁ - 1, by omega⟩
  have hout : ∀ I, I < k + 1 + n₂ → qOut (k + 1 + n₂) (joinQ (k + 1) Q₁ Q₂) Qd₂ I = joinQ (k + 1) Q₁ Q₂ I := by
    intro I hI; rw [qOut, if_neg hI.ne]
  have hin : ∀ I, qIn (joinQ (k + 1) Q₁ Q₂) Qu₁ (I + 1) = joinQ (k + 1) Q₁ Q₂ I := by
    intro I; rw [qIn, if_neg (by omega)]; rfl
  have lo : ∀ i, i < k + 1 → joinQ (k + 1) Q₁ Q₂ i = Q₁ i := fun i hi => if_pos hi
  have up : ∀ i, joinQ (k + 1) Q₁ Q₂ (k + 1 + i) = Q₂ i := fun i => by
    rw [joinQ, if_neg (by omega)]; congr 1; omega
  have hlo : ∀ I, I ≤ k + 1 → joinH (k + 1) h₁ h₂ I = h₁ I := fun I hI => if_pos hI
  have hup : ∀ I, joinH (k + 1) h₁ h₂ (k + 1 + I) = h₂ I := fun I => by
    rw [joinH]
    split_ifs with h
    · obtain rfl : I = 0 := by omega
      exact e
    · congr 1; omega
  have in₁ : ∀ i, i < k + 1 → qIn (joinQ (k + 1) Q₁ Q₂) Qu₁ i = qIn Q₁ Qu₁ i := by
    intro i hi; unfold qIn; split_ifs with h
    · rfl
    · exact lo _ (by omega)
  have in₂ : ∀ i, 1 ≤ i → qIn (joinQ (k + 1) Q₁ Q₂) Qu₁ (k + 1 + i) = qIn Q₂ Qu₂ i := by
    intro i hi
    obtain ⟨j, rfl⟩ : ∃ j, i = j + 1 := ⟨i - 1, by omega⟩
    rw [show k + 1 + (j + 1) = (k + 1 + j) + 1 by omega, hin, up]
    simp [qIn]
  have out₁ : ∀ i, i < k + 1 → qOut (k + 1 + n₂) (joinQ (k + 1) Q₁ Q₂) Qd₂ i = qOut (k + 1) Q₁ Qd₁ i := by
    intro i hi; rw [hout i (by omega), lo i hi, qOut, if_neg hi.ne]
  have out₂ : ∀ i, i ≤ n₂ → qOut (k + 1 + n₂) (joinQ (k + 1) Q₁ Q₂) Qd₂ (k + 1 + i) = qOut n₂ Q₂ Qd₂ i := by
    intro i hi
    unfold qOut
    by_cases h : i = n₂
    · rw [if_pos (by omega), if_pos h]
    · rw [if_neg (by omega), if_neg h, up]
  have A1 : ∀ i, i < k + 1 → (c₁.join (k + 1) c₂ S R).a i = c₁.a i ∧ (c₁.join (k + 1) c₂ S R).b i = c₁.b i ∧
      (c₁.join (k + 1) c₂ S R).c i = c₁.c i ∧ (c₁.join (k + 1) c₂ S R).P i = c₁.P i ∧
      (c₁.join (k + 1) c₂ S R).A i = c₁.A i := fun i hi =>
    ⟨if_pos hi, if_pos hi, if_pos hi, if_pos hi, if_pos hi⟩
  have A2 : ∀ i, (c₁.join (k + 1) c₂ S R).a (k + 1 + i) = c₂.a i ∧ (c₁.join (k + 1) c₂ S R).b (k + 1 + i) = c₂.b i ∧
      (c₁.join (k + 1) c₂ S R).c (k + 1 + i) = c₂.c i ∧ (c₁.join (k + 1) c₂ S R).P (k + 1 + i) = c₂.P i ∧
      (c₁.join (k + 1) c₂ S R).A (k + 1 + i) = c₂.A i := by
    intro i
    have h : ¬ k + 1 + i < k + 1 := by omega
    have h' : k + 1 + i - (k + 1) = i := by omega
    simp only [Coef.join, if_neg h, h', and_self]
  have last := s₁.momentum k (by omega)
  have first := s₂.momentum 0 (by omega)
  have end₁ := s₁.continuity (k + 1) le_rfl
  have start₂ := s₂.continuity 0 (by omega)
  rw [qOut, if_pos rfl] at last
  rw [qIn, if_pos rfl] at first
  rw [qOut, if_pos rfl, qIn, if_neg (by omega), show k + 1 - 1 = k from rfl] at end₁
  rw [qOut, if_neg (by omega), qIn, if_pos rfl] at start₂
  constructor
  · intro s
    have m1 := s.momentum k (by omega)
    have m2 := s.momentum (k + 1) (by omega)
    obtain ⟨a1, a2, a3, a4, a5⟩ := A1 k (by omega)
    obtain ⟨b1, b2, b3, b4, b5⟩ := A2 0
    rw [a1, a2, a3, a4, a5, in₁ k (by omega), lo k (by omega), hout _ (by omega), up 0, hlo k (by omega),
      hlo (k + 1) le_rfl] at m1
    rw [Nat.add_zero] at b1 b2 b3 b4 b5
    rw [b1, b2, b3, b4, b5, hin, lo k (by omega), up 0, hup 0, 
      out₂ 1 p₂, hup 1] at m2
    rw [show k + 1 - 1 = k from rfl]
    constructor
    · linear_combination last - m1
    · rw [Nat.zero_add] at first
      linear_combination first - m2
  · rintro ⟨d1, d2⟩
    rw [show k + 1 - 1 = k from rfl] at d1 d2
    refine ⟨fun i hi => ?_, fun I hI => ?_⟩
    · rcases lt_trichotomy i k with h | rfl | h
      · obtain ⟨a1, a2, a3, a4, a5⟩ := A1 i (by omega)
        rw [a1, a2, a3, a4, a5, in₁ i (by omega), lo i (by omega), out₁ (i + 1) (by omega), hlo i (by omega),
          hlo (i + 1) (by omega)]
        exact s₁.momentum i (by omega)
      · obtain ⟨a1, a2, a3, a4, a5⟩ := A1 i (by omega)
        rw [a1, a2, a3, a4, a5, in₁ i (by omega), lo i (by omega), hout _ (by omega), show i + 1 = i + 1 + 0 from rfl,
          up 0, hlo i (by omega), hlo (i + 1 + 0) le_rfl]
        linear_combination last - d1
      · obtain ⟨j, rfl⟩ : ∃ j, i = k + 1 + j := ⟨i - (k + 1), by omega⟩
        obtain ⟨b1, b2, b3, b4, b5⟩ := A2 j
        rw [b1, b2, b3, b4, b5, up j, hup j, show k + 1 + j + 1 = k + 1 + (j + 1) by omega, out₂ (j + 1) (by omega),
          hup (j + 1)]
        rcases Nat.eq_zero_or_pos j with rfl | hj
        · rw [Nat.add_zero, hin, lo k (by omega)]
          linear_combination first - d2
        · rw [in₂ j hj]
          exact s₂.momentum j (by omega)
    · rcases lt_trichotomy I (k + 1) with h | rfl | h
      · have e1 : (c₁.join (k + 1) c₂ S R).E I = c₁.E I := if_pos h
        have e2 : (c₁.join (k + 1) c₂ S R).D I = c₁.D I := if_pos h
        rw [e1, e2, out₁ I h, in₁ I h, hlo I h.le]
        exact s₁.continuity I h.le
      · have e1 : (c₁.join (k + 1) c₂ S R).E (k + 1) = c₁.E (k + 1) + c₂.E 0 + S := by simp [Coef.join]
        have e2 : (c₁.join (k + 1) c₂ S R).D (k + 1) = c₁.D (k + 1) + c₂.D 0 + R := by simp [Coef.join]
        have q : joinQ (k + 1) Q₁ Q₂ (k + 1) = Q₂ 0 := up 0
        rw [e1, e2, hout _ (by omega), hin, lo k (by omega), q, hlo (k + 1) le_rfl]
        rw [e] at end₁ ⊢
        linear_combination end₁ + start₂ - bal
      · obtain ⟨j, rfl⟩ : ∃ j, I = k + 1 + j := ⟨I - (k + 1), by omega⟩
        have n1 : ¬ k + 1 + j < k + 1 := by omega
        have n2 : ¬ k + 1 + j = k + 1 := by omega
        have n3 : k + 1 + j - (k + 1) = j := by omega
        have e1 : (c₁.join (k + 1) c₂ S R).E (k + 1 + j) = c₂.E j := by simp only [Coef.join, if_neg n1, if_neg n2, n3]
        have e2 : (c₁.join (k + 1) c₂ S R).D (k + 1 + j) = c₂.D j := by simp only [Coef.join, if_neg n1, if_neg n2, n3]
        rw [e1, e2, out₂ j (by omega), in₂ j (by omega), hup j]
        exact s₂.continuity j (by omega)

/-- **C209 (same results).** Where the advection terms of the two links at the joint do not reach across it, the undivided
superlink with the same end depths has no other solution than the two parts put together. -/
theorem C209_same [IsStrictOrderedRing K] (p₁ : 1 ≤ n₁) (p₂ : 1 ≤ n₂)
    (s₁ : SaintVenant g c₁ n₁ Q₁ h₁ Qu₁ Qd₁) (s₂ : SaintVenant g c₂ n₂ Q₂ h₂ Qu₂ Qd₂)
    (e : h₁ n₁ = h₂ 0) (bal : Qd₁ - Qu₂ = S * h₂ 0 - R)
    (d₁ : c₁.c (n₁ - 1) = 0) (d₂ : c₂.a 0 = 0)
    (ph₁ : Physical g c₁ n₁) (ph₂ : Physical g c₂ n₂) (hS : 0 ≤ S)
    {Q h : ℕ → K} {Qu Qd : K} (s : SaintVenant g (c₁.join n₁ c₂ S R) (n₁ + n₂) Q h Qu Qd)
    (eu : h 0 = h₁ 0) (ed : h (n₁ + n₂) = h₂ n₂) :
    (∀ i, i < n₁ → Q i = Q₁ i) ∧ (∀ i, i < n₂ → Q (n₁ + i) = Q₂ i) ∧
    (∀ I, I ≤ n₁ → h I = h₁ I) ∧ (∀ I, I ≤ n₂ → h (n₁ + I) = h₂ I) ∧ Qu = Qu₁ ∧ Qd = Qd₂ := by
  have J := (C209_equations p₁ p₂ s₁ s₂ e bal).2 ⟨by rw [d₁, zero_mul], by rw [d₂, zero_mul]⟩
  have ph : Physical g (c₁.join n₁ c₂ S R) (n₁ + n₂) := by
    have lift : ∀ {f₁ f₂ : ℕ → K} {p : K → Prop}, (∀ i, i < n₁ → p (f₁ i)) → (∀ i, i < n₂ → p (f₂ i)) →
        ∀ i, i < n₁ + n₂ → p (if i < n₁ then f₁ i else f₂ (i - n₁)) := by
      intro f₁ f₂ p a b i hi
      split_ifs with h'
      · exact a i h'
      · exact b _ (by omega)
    refine ⟨ph₁.g_pos, lift (p := fun t => 0 < t) ph₁.A_pos ph₂.A_pos,
      lift (p := fun t => t ≤ 0) ph₁.a_nonpos ph₂.a_nonpos, lift (p := fun t => t ≤ 0) ph₁.c_nonpos ph₂.c_nonpos,
      fun i hi => ?_, fun I hI => ?_⟩
    · have := lift (f₁ := fun i => c₁.a i + c₁.b i + c₁.c i) (f₂ := fun i => c₂.a i + c₂.b i + c₂.c i)
        (p := fun t => 0 < t) ph₁.abc_pos ph₂.abc_pos i hi
      simp only [Coef.join]
      split_ifs at this ⊢ <;> exact this
    · simp only [Coef.join]
      split_ifs with h1 h2
      · exact ph₁.E_nonneg I h1.le
      · exact add_nonneg (add_nonneg (ph₁.E_nonneg _ le_rfl) (ph₂.E_nonneg _ (by omega))) hS
      · exact ph₂.E_nonneg _ (by omega)
  let ix : Idx := ⟨1, fun _ => n₁ + n₂, fun _ => 0, fun _ => 0⟩
  have L : Layout ix.NK ix.nk ix.I_1k ix.i_1k := ⟨fun _ _ => by show 1 ≤ n₁ + n₂; omega,
    fun a b ha hb hab => absurd (show a = b from by
      have : a < 1 := ha
      have : b < 1 := hb
      omega) hab,
    fun a b ha hb hab => absurd (show a = b from by
      have : a < 1 := ha
      have : b < 1 := hb
      omega) hab⟩
  have F := sweptFwd_rel g (c₁.join n₁ c₂ S R) ix ⟨fun _ => 0, fun _ => 0, fun _ => 0, fun _ => 0⟩ L (k := 0)
    (show 0 < 1 by omega)
  have sl : (c₁.join n₁ c₂ S R).slice (ix.i_1k 0) (ix.I_1k 0) = c₁.join n₁ c₂ S R := by
    simp [Coef.slice, ix]
  rw [sl] at F
  have j0 : joinH n₁ h₁ h₂ 0 = h₁ 0 := if_pos (by omega)
  have jn : joinH n₁ h₁ h₂ (n₁ + n₂) = h₂ n₂ := by
    rw [joinH, if_neg (by omega), Nat.add_sub_cancel_left]
  obtain ⟨q, hh, u, d⟩ := solution_unique (n := n₁ + n₂) (by omega) F (physical_fwdPivots ph F) s J (eu.trans j0.symm) (ed.trans jn.symm)
  refine ⟨fun i hi => (q i (by omega)).trans (if_pos hi), fun i hi => (q (n₁ + i) (by omega)).trans ?_,
    fun I hI => (hh I (by omega)).trans (if_pos hI), fun I hI => (hh (n₁ + I) (by omega)).trans ?_, u, d⟩
  · rw [joinQ, if_neg (by omega), Nat.add_sub_cancel_left]
  · rw [joinH]
    split_ifs with h0
    · obtain rfl : I = 0 := by omega
      exact e
    · rw [Nat.add_sub_cancel_left]

/-! ### Cases meeting the hypotheses -/

/-- Two parts of one link each; `c` is the advection coefficient towards the joint. -/
def partOne (c : ℚ) : Coef ℚ where
  a _ := 0
  b _ := 1 - c
  c _ := c
  P _ := c / 2
  A _ := 1
  E _ := 1
  D I := if I = 0 then 2 else 5 / 2

def partTwo : Coef ℚ where
  a _ := 0
  b _ := 1
  c _ := 0
  P _ := 0
  A _ := 1
  E _ := 1
  D I := if I = 0 then 2 else 4

theorem partOne_solved (c : ℚ) : SaintVenant 1 (partOne c) 1 (fun _ => 1) (fun I => 3 - I) 2 (3 / 2) := by
  refine ⟨fun i hi => ?_, fun I hI => ?_⟩
  · obtain rfl : i = 0 := by omega
    simp [qIn, qOut, partOne]; ring
  · obtain rfl | rfl : I = 0 ∨ I = 1 := by omega
    · norm_num [qIn, qOut, partOne]
    · norm_num [qIn, qOut, partOne]

theorem partTwo_solved : SaintVenant 1 partTwo 1 (fun _ => 1) (fun I => 2 - I) 1 4 := by
  refine ⟨fun i hi => ?_, fun I hI => ?_⟩
  · obtain rfl : i = 0 := by omega
    norm_num [qIn, qOut, partTwo]
  · obtain rfl | rfl : I = 0 ∨ I = 1 := by omega
    · norm_num [qIn, qOut, partTwo]
    · norm_num [qIn, qOut, partTwo]

/-- Without advection across the joint the parts solve the undivided equations; with it they do not, since the joint
stores water. -/
theorem C209_advection_matters (c : ℚ) :
    SaintVenant 1 ((partOne c).join 1 partTwo 1 (3 / 2)) 2 (joinQ 1 (fun _ => 1) (fun _ => 1))
      (joinH 1 (fun I => 3 - I) (fun I => 2 - I)) 2 4 ↔ c = 0 := by
  refine (C209_equations le_rfl le_rfl (partOne_solved c) partTwo_solved (by norm_num) (by norm_num)).trans ?_
  norm_num [partOne, partTwo]

/-- Every solution of the undivided superlink between depths 3 and 1 is the one found in two parts. -/
example {Q h : ℕ → ℚ} {Qu Qd : ℚ} (s : SaintVenant 1 ((partOne 0).join 1 partTwo 1 (3 / 2)) (1 + 1) Q h Qu Qd)
    (eu : h 0 = 3) (ed : h 2 = 1) : Q 0 = 1 ∧ Q 1 = 1 ∧ h 1 = 2 ∧ Qu = 2 ∧ Qd = 4 := by
  have ph : Physical 1 (partOne 0) 1 := by constructor <;> intros <;> norm_num [partOne]
  have ph' : Physical 1 partTwo 1 := by constructor <;> intros <;> norm_num [partTwo]
  obtain ⟨a, b, e, -, u, d⟩ := C209_same le_rfl le_rfl (partOne_solved 0) partTwo_solved (by norm_num) (by norm_num) rfl rfl
    ph ph' (by norm_num) s (by rw [eu]; norm_num) (by rw [show 1 + 1 = 2 from rfl, ed]; norm_num)
  exact ⟨a 0 (by omega), b 0 (by omega), (e 1 le_rfl).trans (by norm_num), u, d⟩

end Pipedream.Sweep

namespace Pipedream.Step

open Pipedream.Sweep Pipedream.Link Pipedream.Superlink Pipedream.Control Pipedream.Network

variable {m : Model} {geo : Geo} {inp : Inputs} {wk : Work} {prev cur : Hyd} {co : Coef ℝ} {x : ℕ → ℝ} {i k₁ k₂ : ℕ}

/-- Superlink `k₁` ends and superlink `k₂` starts at superjunction `i`, at the same elevation and without losses;
nothing else is attached to it. -/
structure Joint (m : Model) (i k₁ k₂ : ℕ) : Prop where
  lt : i < m.M
  free : m.bc i = false
  lt₁ : k₁ < m.ix.NK
  lt₂ : k₂ < m.ix.NK
  ends : ∀ k, k < m.ix.NK → (m.Jd k = i ↔ k = k₁)
  starts : ∀ k, k < m.ix.NK → (m.Ju k = i ↔ k = k₂)
  orifices : ∀ o, o < m.n_o → m.Juo o ≠ i ∧ m.Jdo o ≠ i
  weirs : ∀ w, w < m.n_w → m.Juw w ≠ i ∧ m.Jdw w ≠ i
  pumps : ∀ p, p < m.n_p → m.Jup p ≠ i ∧ m.Jdp p ≠ i
  level : m.z_dk k₁ = m.z_uk k₂
  Cd : m.C_dk k₁ = 0
  Cu : m.C_uk k₂ = 0

/-- A sum over superlinks with one term. -/
theorem sum_one {n : ℕ} {J : ℕ → ℕ} {k : ℕ} (hk : k < n) (h : ∀ l, l < n → (J l = i ↔ l = k)) (f : ℕ → ℝ) :
    ∑ l ∈ Finset.range n, (if J l = i then f l else 0) = f k := by
  refine (Finset.sum_eq_single_of_mem k (Finset.mem_range.mpr hk) fun l hl hlk => ?_).trans ?_
  · rw [if_neg fun e => hlk ((h l (Finset.mem_range.mp hl)).1 e)]
  · rw [if_pos ((h k hk).2 rfl)]

theorem Joint.net (b : Joint m i k₁ k₂) (Qu Qd : ℕ → ℝ) : netInto m.ix.NK m.Ju m.Jd Qu Qd i = Qd k₁ - Qu k₂ := by
  rw [netInto, Finset.sum_sub_distrib, sum_one b.lt₁ b.ends, sum_one b.lt₂ b.starts]

theorem none_attached {n : ℕ} {Ju Jd : ℕ → ℕ} (h : ∀ o, o < n → Ju o ≠ i ∧ Jd o ≠ i) (Q Q' : ℕ → ℝ) :
    netInto n Ju Jd Q Q' i = 0 :=
  Finset.sum_eq_zero fun o ho => by
    have := h o (Finset.mem_range.mp ho)
    rw [if_neg this.1, if_neg this.2, sub_zero]

/-- **C209 (a pass of the solver).** In an unclipped pass two superlinks that meet at a joint have the same depth there, and
their results solve the equations of the undivided superlink, with the storage of the superjunction at the joint,
exactly if the advection terms do not notice the difference between the flow at the joint and that of the next link. -/
theorem C209_pass (b : Joint m i k₁ k₂) (c : m.Consistent) (ps : PhysicalStep m geo inp) (cw : CleanWork m wk.mats)
    (p : Pass m geo inp wk prev cur co x) (he : m.end_method = .b)
    (uc : Unclipped m x (m.advance geo inp wk cur co x)
      (endDepthU m geo wk cur co (m.advance geo inp wk cur co x).H)
      (endDepthD m geo wk cur co (m.advance geo inp wk cur co x).H))
    (Ad : 0 < geo.A_d k₁) (Au : 0 < geo.A_u k₂) (wet : m.z_uk k₂ ≤ cur.H i)
    (deep₁ : m.min_depth < (m.advance geo inp wk cur co x).h (m.ix.I_1k k₁ + m.ix.nk k₁))
    (deep₂ : m.min_depth < (m.advance geo inp wk cur co x).h (m.ix.I_1k k₂)) :
    let next := m.advance geo inp wk cur co x
    let c₁ := co.slice (m.ix.i_1k k₁) (m.ix.I_1k k₁)
    let c₂ := co.slice (m.ix.i_1k k₂) (m.ix.I_1k k₂)
    next.h (m.ix.I_1k k₁ + m.ix.nk k₁) = next.H i - m.z_uk k₂ ∧ next.h (m.ix.I_1k k₂) = next.H i - m.z_uk k₂ ∧
    (SaintVenant m.g
        (c₁.join (m.ix.nk k₁) c₂ (surfaceAt m geo cur i / inp.dt)
          (surfaceAt m geo cur i / inp.dt * (prev.H i - m.z_uk k₂) + inp.Q_in i))
        (m.ix.nk k₁ + m.ix.nk k₂)
        (joinQ (m.ix.nk k₁) (fun j => next.Q (m.ix.i_1k k₁ + j)) (fun j => next.Q (m.ix.i_1k k₂ + j)))
        (joinH (m.ix.nk k₁) (fun j => next.h (m.ix.I_1k k₁ + j)) (fun j => next.h (m.ix.I_1k k₂ + j)))
        (next.Qu k₁) (next.Qd k₂) ↔
      co.c (m.ix.i_1k k₁ + (m.ix.nk k₁ - 1)) * (next.Qd k₁ - next.Q (m.ix.i_1k k₂)) = 0 ∧
      co.a (m.ix.i_1k k₂) * (next.Qu k₂ - next.Q (m.ix.i_1k k₁ + (m.ix.nk k₁ - 1))) = 0) := by
  intro next c₁ c₂
  have ju : m.Ju k₂ = i := (b.starts k₂ b.lt₂).2 rfl
  have jd : m.Jd k₁ = i := (b.ends k₁ b.lt₁).2 rfl
  have l1 := C165_downstream (geo := geo) (inp := inp) (wk := wk) (s := cur) (co := co) (x := x) c b.lt₁ ps.g_pos Ad
    (by rw [jd, b.level]; exact wet) deep₁
  have l2 := C165_upstream (geo := geo) (inp := inp) (wk := wk) (s := cur) (co := co) (x := x) c b.lt₂ ps.g_pos Au
    (by rw [ju]; exact wet) deep₂
  rw [b.Cd, zero_div, zero_mul, lostD, jd, b.level] at l1
  rw [b.Cu, zero_div, zero_mul, lostU, ju] at l2
  have h1 : next.h (m.ix.I_1k k₁ + m.ix.nk k₁) = next.H i - m.z_uk k₂ := by linarith
  have h2 : next.h (m.ix.I_1k k₂) = next.H i - m.z_uk k₂ := by linarith
  refine ⟨h1, h2, ?_⟩
  have bal := C07_step c cw p uc.heads i b.lt b.free
  unfold Network.Balanced at bal
  have z : ∀ {n : ℕ} {Ju Jd : ℕ → ℕ} (f : ℕ → ℝ), (∀ o, o < n → Ju o ≠ i ∧ Jd o ≠ i) →
      ∑ o ∈ Finset.range n, ((if Jd o = i then f o else 0) - (if Ju o = i then f o else 0)) = 0 :=
    fun f h => none_attached h f f
  have o0 : (m.net geo inp wk cur co).orifices.inflow next.H i = 0 := z _ b.orifices
  have w0 : (m.net geo inp wk cur co).weirs.inflow next.H i = 0 := z _ b.weirs
  have p0 : (m.net geo inp wk cur co).pumps.inflow next.H i = 0 := z _ b.pumps
  have li : (m.net geo inp wk cur co).links.inflow next.H i = next.Qd k₁ - next.Qu k₂ := b.net next.Qu next.Qd
  have dt0 := ps.dt_pos.ne'
  have ar : (m.net geo inp wk cur co).As i / inp.dt + (m.net geo inp wk cur co).links.xiSum i
      = surfaceAt m geo cur i / inp.dt := by
    rw [← area_eq (wk := wk) (co := co) ps i, Network.area]
    field_simp
  change _ = _ + _ + (m.net geo inp wk cur co).orifices.inflow next.H i + (m.net geo inp wk cur co).weirs.inflow next.H i
    + (m.net geo inp wk cur co).pumps.inflow next.H i at bal
  rw [o0, w0, p0, ar] at bal
  have s1 := C01_step c ps p he uc b.lt₁
  have s2 := C01_step c ps p he uc b.lt₂
  refine C209_equations (c.layout.pos _ b.lt₁) (c.layout.pos _ b.lt₂) s1 s2 (h1.trans h2.symm) ?_
  have h3 : next.h (m.ix.I_1k k₂ + 0) = next.H i - m.z_uk k₂ := h2
  have bal' : surfaceAt m geo cur i / inp.dt * (next.H i - prev.H i) = inp.Q_in i + (next.Qd k₁ - next.Qu k₂) := by
    rw [← li]; linarith [bal]
  change next.Qd k₁ - next.Qu k₂ = surfaceAt m geo cur i / inp.dt * next.h (m.ix.I_1k k₂ + 0) - _
  rw [h3]
  linear_combination -bal'

/-- **C209 (steady flow).** In steady flow without lateral inflow at the joint the flow, and the water level, pass through a
joint unchanged: the last link before it, the ends and the first link after it carry the same flow. -/
theorem C209_steady (b : Joint m i k₁ k₂) (c : m.Consistent) (sd : Steady m geo inp cur) (q0 : inp.Q_in i = 0)
    (l₁ : inp.Q_0Ik (m.ix.I_1k k₁ + m.ix.nk k₁) = 0) (l₂ : inp.Q_0Ik (m.ix.I_1k k₂) = 0) (wet : m.z_uk k₂ ≤ cur.H i) :
    cur.Qd k₁ = cur.Qu k₂ ∧ cur.Q (m.ix.i_1k k₁ + m.ix.nk k₁ - 1) = cur.Qd k₁ ∧ cur.Q (m.ix.i_1k k₂) = cur.Qu k₂ ∧
    cur.h (m.ix.I_1k k₁ + m.ix.nk k₁) = cur.H i - m.z_uk k₂ ∧ cur.h (m.ix.I_1k k₂) = cur.H i - m.z_uk k₂ := by
  have ju : m.Ju k₂ = i := (b.starts k₂ b.lt₂).2 rfl
  have jd : m.Jd k₁ = i := (b.ends k₁ b.lt₁).2 rfl
  have n1 := c.layout.pos _ b.lt₁
  have n2 := c.layout.pos _ b.lt₂
  have bal := sd.balance i b.lt b.free
  rw [q0, b.net, none_attached b.orifices, none_attached b.weirs, none_attached b.pumps] at bal
  have e1 := sd.continuity k₁ b.lt₁ _ le_rfl
  have e2 := sd.continuity k₂ b.lt₂ 0 (by omega)
  rw [arriving, if_neg (by omega), leaving, if_pos rfl, l₁] at e1
  rw [arriving, if_pos rfl, leaving, if_neg (by omega), Nat.add_zero, Nat.add_zero, l₂] at e2
  have d := sd.down k₁ b.lt₁
  have u := sd.up k₂ b.lt₂
  rw [jd, b.level, if_pos wet, b.Cd] at d
  rw [ju, if_pos wet, b.Cu] at u
  refine ⟨by linarith, by linarith, by linarith, ?_, ?_⟩
  · rw [d]; ring
  · rw [u]; ring

/-! ### A case meeting the hypotheses -/

/-- The steadily flowing pipe of C100 with a superjunction in its middle. -/
noncomputable def manhole : Model :=
  { exModel false with
    M := 3
    ix := { NK := 2, nk := fun _ => 1, I_1k := fun k => 2 * k, i_1k := fun k => k }
    nix := { kI := fun I => I / 2, fwd := fun I => (I + 1) / 2, bwd := fun I => I / 2, isStart := fun I => I % 2 == 0,
             isEnd := fun I => I % 2 == 1 }
    linkStart := fun _ => true
    linkEnd := fun _ => true
    Ju := fun k => k
    Jd := fun k => k + 1
    S_o := fun _ => 1 / 100
    n := fun _ => 1 / 10
    z_uk := fun k => 2 - k / 10
    z_dk := fun k => 2 - (k + 1) / 10
    C_uk := fun _ => 0
    C_dk := fun _ => 0
    n_o := 0
    n_w := 0
    n_p := 0 }

noncomputable def manholeInp : Inputs := { exInp with Q_in := fun i => if i = 0 then 1 else if i = 1 then 0 else -1 }

noncomputable def manholeFlow : Hyd := { exSteady with H := fun i => 3 - i / 10 }

theorem manhole_joint : Joint manhole 1 0 1 := by
  constructor <;> intros <;> simp_all [manhole, exModel]

theorem manhole_consistent : manhole.Consistent := by
  refine ⟨⟨fun _ _ => ?_, fun k k' h h' hk => ?_, fun k k' h h' hk => ?_⟩, ?_, fun k hk => ⟨?_, ?_, ?_, ?_, ?_⟩,
    ?_, ?_, ?_, ?_, ?_, ?_, ?_, ?_⟩ <;> simp [manhole, exModel] at * <;> try omega

theorem manhole_tables : StartTables manhole := by
  refine ⟨fun k hk j hj => ?_, fun k hk j hj => ?_⟩ <;> simp [manhole] at * <;> omega

theorem manhole_physical : PhysicalStep manhole exSteadyGeo manholeInp := by
  constructor <;> intros <;> norm_num [manhole, exSteadyGeo, manholeInp, exModel, exGeo, exInp]

theorem manhole_steady : Steady manhole exSteadyGeo manholeInp manholeFlow := by
  have ar : ∀ k j, arriving manhole manholeFlow k j = 1 := by
    intro k j; unfold arriving; split_ifs <;> rfl
  have le : ∀ k j, leaving manhole manholeFlow k j = 1 := by
    intro k j; unfold leaving; split_ifs <;> rfl
  refine ⟨fun i _ _ f hf => ?_, fun i hi _ => ?_, fun k hk => ?_, fun k hk j hj => ?_, fun k hk => ?_,
    fun k hk => ?_, ?_, ?_, ?_⟩
  · simp [manholeInp, exInp] at hf
  · obtain rfl | rfl | rfl : i = 0 ∨ i = 1 ∨ i = 2 := by simp [manhole] at hi; omega
    all_goals
      simp only [netInto, manhole, Finset.sum_range_succ, Finset.sum_range_zero]
      norm_num [manholeFlow, exSteady, manholeInp]
  · refine (C100_normal_depth manhole_consistent manhole_physical (q := 1) (y := 1) hk (by norm_num) rfl rfl
      (fun _ _ => rfl) (fun _ _ => rfl) (fun j _ => ⟨rfl, rfl, ?_⟩)).2 (fun j _ => ?_)
    · norm_num [manhole]
    · have : Real.sqrt (1 / 100 : ℝ) = 1 / 10 := by
        rw [show (1 / 100 : ℝ) = (1 / 10) ^ 2 by norm_num]; exact Real.sqrt_sq (by norm_num)
      simp only [manhole, exSteadyGeo, exGeo, this]
      norm_num
  · rw [ar, le]; simp [manholeInp, exInp]
  · obtain rfl | rfl : k = 0 ∨ k = 1 := by simp [manhole] at hk; omega
    all_goals norm_num [manhole, manholeFlow, exSteady]
  · obtain rfl | rfl : k = 0 ∨ k = 1 := by simp [manhole] at hk; omega
    all_goals norm_num [manhole, manholeFlow, exSteady]
  all_goals (intro o ho; simp [manhole] at ho)

theorem manhole_inside : Inside manhole manholeFlow := by
  refine ⟨fun i hi => ?_, fun k hk j hj => ?_, fun k hk j h1 h2 => ?_, fun k hk => ?_⟩
  · obtain rfl | rfl | rfl : i = 0 ∨ i = 1 ∨ i = 2 := by simp [manhole] at hi; omega
    all_goals norm_num [manhole, exModel, manholeFlow]
  all_goals norm_num [manhole, exModel, manholeFlow, exSteady]

theorem manhole_proper : ProperControls manhole exSteadyGeo manholeInp manholeFlow := by
  refine ⟨?_, ?_, ?_, ?_, ?_⟩ <;> intro k hk
  · norm_num [exSteadyGeo, exGeo]
  · norm_num [exSteadyGeo, exGeo]
  all_goals simp [manhole] at hk

/-- A pass from this flow exists, and its results solve the equations of the pipe without the superjunction. -/
example : ∃ co x, Pass manhole exSteadyGeo manholeInp exWork manholeFlow manholeFlow co x ∧
    let next := manhole.advance exSteadyGeo manholeInp exWork manholeFlow co x
    SaintVenant manhole.g
      ((co.slice 0 0).join 1 (co.slice 1 2) (surfaceAt manhole exSteadyGeo manholeFlow 1 / 60)
        (surfaceAt manhole exSteadyGeo manholeFlow 1 / 60 * (manholeFlow.H 1 - manhole.z_uk 1) + 0))
      2 (joinQ 1 (fun j => next.Q (0 + j)) (fun j => next.Q (1 + j)))
      (joinH 1 (fun j => next.h (0 + j)) (fun j => next.h (2 + j))) (next.Qu 0) (next.Qd 1) := by
  have cw : CleanWork manhole exWork.mats :=
    ⟨⟨fun _ _ _ _ => rfl⟩, ⟨fun _ _ _ _ => rfl, fun _ _ => rfl⟩, ⟨fun _ _ _ _ => rfl, fun _ _ => rfl⟩,
      ⟨fun _ _ _ _ => rfl, fun _ _ => rfl⟩⟩
  obtain ⟨co, x, p⟩ := C06_step_exists (prev := manholeFlow) (cur := manholeFlow) manhole_consistent manhole_physical cw
    (fun _ _ => Or.inl rfl)
  have rep := C100_steady_reproduced manhole_consistent manhole_tables manhole_physical cw rfl manhole_proper
    manhole_inside (SameState.refl _ _) manhole_steady p
  have uc := unclipped_of_inside manhole_consistent (manhole_inside.congr rep)
  have d : ∀ k, k < 2 → ∀ j, j ≤ 1 →
      (manhole.advance exSteadyGeo manholeInp exWork manholeFlow co x).h (2 * k + j) = 1 := fun k hk j hj => rep.h k hk j hj
  have q : ∀ k, k < 2 → (manhole.advance exSteadyGeo manholeInp exWork manholeFlow co x).Q k = 1 := fun k hk =>
    rep.Q k hk 0 Nat.one_pos
  have C := C209_pass manhole_joint manhole_consistent manhole_physical cw p rfl uc (by norm_num [exSteadyGeo, exGeo])
    (by norm_num [exSteadyGeo, exGeo]) (by norm_num [manhole, manholeFlow])
    (lt_of_lt_of_eq (by norm_num [manhole, exModel]) (d 0 (by omega) 1 le_rfl).symm)
    (lt_of_lt_of_eq (by norm_num [manhole, exModel]) (d 1 (by omega) 0 (by omega)).symm)
  refine ⟨co, x, p, C.2.2.2 ⟨?_, ?_⟩⟩
  · have e1 : (manhole.advance exSteadyGeo manholeInp exWork manholeFlow co x).Qd 0 = 1 := rep.Qd 0 (by show 0 < 2; omega)
    have e2 : (manhole.advance exSteadyGeo manholeInp exWork manholeFlow co x).Q (manhole.ix.i_1k 1) = 1 := q 1 (by omega)
    rw [e1, e2, sub_self, mul_zero]
  · have e1 : (manhole.advance exSteadyGeo manholeInp exWork manholeFlow co x).Qu 1 = 1 := rep.Qu 1 (by show 1 < 2; omega)
    have e2 : (manhole.advance exSteadyGeo manholeInp exWork manholeFlow co x).Q
        (manhole.ix.i_1k 0 + (manhole.ix.nk 0 - 1)) = 1 := q 0 (by omega)
    rw [e1, e2, sub_self, mul_zero]

example : manholeFlow.Qd 0 = manholeFlow.Qu 1 :=
  (C209_steady manhole_joint manhole_consistent manhole_steady rfl rfl rfl (by norm_num [manhole, manholeFlow])).1

end Pipedream.Step
