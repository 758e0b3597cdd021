import Verif.QualityLinear

/-!
# Errors of concentrations are not amplified (C170)

Two runs in the same water, with the default limits `c_min = 0`, `c_max = np.inf` (nquality.py 98, 204–205).
-/

namespace Pipedream.Quality

open Pipedream.Network Pipedream.Link Pipedream.Sweep

variable {K : Type*} [Field K] [LinearOrder K] [IsStrictOrderedRing K]

/-! ### Specification -/

/-- The concentrations differ by at most `δ` everywhere in the network. -/
structure NearOn (w : Wiring) (δ : K) (c1 c2 : Conc K) : Prop where
  j : ∀ i, i < w.M → |c1.j i - c2.j i| ≤ δ
  I : ∀ k, k < w.ix.NK → ∀ j, j ≤ w.ix.nk k → |c1.I (w.ix.I_1k k + j) - c2.I (w.ix.I_1k k + j)| ≤ δ
  i : ∀ k, k < w.ix.NK → ∀ j, j < w.ix.nk k → |c1.i (w.ix.i_1k k + j) - c2.i (w.ix.i_1k k + j)| ≤ δ
  u : ∀ k, k < w.ix.NK → |c1.u k - c2.u k| ≤ δ
  d : ∀ k, k < w.ix.NK → |c1.d k - c2.d k| ≤ δ

/-- Same water and coefficients; inflow and boundary concentrations differ by at most `δ`. A boundary value left out
(`None`: the value is kept) is left out for both. -/
structure NearStep (w : Wiring) (δ : K) (d1 d2 : StepData K) : Prop where
  p : d2.p = d1.p
  y : d2.y = d1.y
  Qj : d2.inp.Q_0j = d1.inp.Q_0j
  QI : d2.inp.Q_0I = d1.inp.Q_0I
  cj : ∀ i, i < w.M → |d1.inp.c_0j i - d2.inp.c_0j i| ≤ δ
  cI : ∀ k, k < w.ix.NK → ∀ j, j ≤ w.ix.nk k → |d1.inp.c_0I (w.ix.I_1k k + j) - d2.inp.c_0I (w.ix.I_1k k + j)| ≤ δ
  bc : (d1.inp.c_bc = none ∧ d2.inp.c_bc = none) ∨
    ∃ b1 b2, d1.inp.c_bc = some b1 ∧ d2.inp.c_bc = some b2 ∧ ∀ i, i < w.M → w.bc i = true → |b1 i - b2 i| ≤ δ

/-- Pairs of steps that are good for both runs. -/
def GoodPairs (w : Wiring) (ds : List (StepData K × StepData K)) (s1 s2 : Conc K × Work K) : Prop :=
  GoodSteps w (ds.map fun d => d.1) s1 ∧ GoodSteps w (ds.map fun d => d.2) s2

/-! ### Helpers -/

section

variable {w : Wiring} {p : Params K} {y : Hydro K} {δ : K}

theorem NearOn.symm {c1 c2 : Conc K} (S : NearOn w δ c1 c2) : NearOn w δ c2 c1 :=
  ⟨fun i hi => by rw [abs_sub_comm]; exact S.j i hi, fun k hk j hj => by rw [abs_sub_comm]; exact S.I k hk j hj,
    fun k hk j hj => by rw [abs_sub_comm]; exact S.i k hk j hj, fun k hk => by rw [abs_sub_comm]; exact S.u k hk,
    fun k hk => by rw [abs_sub_comm]; exact S.d k hk⟩

theorem NearStep.symm {d1 d2 : StepData K} (M : NearStep w δ d1 d2) : NearStep w δ d2 d1 := by
  refine ⟨M.p.symm, M.y.symm, M.Qj.symm, M.QI.symm, fun i hi => by rw [abs_sub_comm]; exact M.cj i hi,
    fun k hk j hj => by rw [abs_sub_comm]; exact M.cI k hk j hj, ?_⟩
  rcases M.bc with ⟨h1, h2⟩ | ⟨b1, b2, h1, h2, h⟩
  · exact .inl ⟨h2, h1⟩
  · exact .inr ⟨b2, b1, h2, h1, fun i hi hb => by rw [abs_sub_comm]; exact h i hi hb⟩

/-- One side of the estimate, on the transport equations. -/
theorem near_lower (W : Wired w) (h0 : 0 ≤ δ) {d1 d2 : StepData K} {c1 c2 n1 n2 : Conc K} (S : NearOn w δ c1 c2)
    (M : NearStep w δ d1 d2) (P : Physical w d1.p d1.y d1.inp) (B : WaterBalance w d1.y d1.inp)
    (T1 : Transport w d1.p d1.y d1.inp c1 n1) (T2 : Transport w d1.p d1.y d2.inp c2 n2) :
    AllGe w (-δ) (n1.comb (-1) 1 n2) := by
  have lo : ∀ {a b : K}, |a - b| ≤ δ → -δ ≤ -1 * a + 1 * b := fun h => by have := (abs_le.mp h).2; linarith
  have R : ∀ {r : K}, 0 ≤ r → r * -δ ≤ 0 := fun h => by have := mul_nonneg h h0; linarith
  have hbc : ∀ i, i < w.M → w.bc i = true → |d1.inp.c_bc.getD c1.j i - d2.inp.c_bc.getD c2.j i| ≤ δ := by
    intro i hi hb
    rcases M.bc with ⟨h1, h2⟩ | ⟨b1, b2, h1, h2, h⟩
    · rw [h1, h2]; exact S.j i hi
    · rw [h1, h2]; exact h i hi hb
  refine transport_lower (m := -δ) W (physical_inp (i2 := d1.inp.comb (-1) 1 d2.inp c1 c2) P rfl rfl)
    (balance_inp B rfl rfl) ⟨fun i hi hb => R (P.Krj i hi hb), fun k hk j hj => R (P.KrI k hk j hj),
      fun k hk j hj => R (P.Kr k hk j hj)⟩
    ⟨fun i hi => lo (S.j i hi), fun k hk j hj => lo (S.I k hk j hj), fun k hk j hj => lo (S.i k hk j hj),
      fun k hk => lo (S.u k hk), fun k hk => lo (S.d k hk)⟩
    ⟨fun i hi hb => ?_, fun i hi hb => ?_, fun k hk j hj => ?_⟩ (transport_comb (-1) 1 M.Qj M.QI T1 T2)
  · simp only [Inputs.comb, Option.getD_some]; exact lo (hbc i hi hb)
  · exact mul_le_mul_of_nonneg_left (lo (M.cj i hi)) (P.Q0j i hi hb)
  · exact mul_le_mul_of_nonneg_left (lo (M.cI k hk j hj)) (P.Q0I k hk j hj)

/-! ### C170 -/

/-- **C170 (one step).** -/
theorem C170_step (W : Wired w) (h0 : 0 ≤ δ) {d1 d2 : StepData K} {s1 s2 : Conc K × Work K}
    (m1 : CleanMats w s1.2.mats) (m2 : CleanMats w s2.2.mats) (C1 : AllGe w 0 s1.1) (C2 : AllGe w 0 s2.1)
    (S : NearOn w δ s1.1 s2.1) (M : NearStep w δ d1 d2) (G1 : GoodStep w d1 s1) (G2 : GoodStep w d2 s2) :
    NearOn w δ (advance w d1.p 0 none d1.y d1.inp s1.2 s1.1 d1.x) (advance w d2.p 0 none d2.y d2.inp s2.2 s2.1 d2.x) := by
  obtain ⟨T1, -⟩ := step_exact W m1 C1 G1
  obtain ⟨T2, -⟩ := step_exact W m2 C2 G2
  have T2' : Transport w d1.p d1.y d2.inp s2.1 (advance w d2.p 0 none d2.y d2.inp s2.2 s2.1 d2.x) := by
    have := T2; rw [M.p, M.y] at this ⊢; exact this
  have T1' : Transport w d2.p d2.y d1.inp s1.1 (advance w d1.p 0 none d1.y d1.inp s1.2 s1.1 d1.x) := by
    have := T1; rw [← M.p, ← M.y] at this ⊢; exact this
  generalize advance w d1.p 0 none d1.y d1.inp s1.2 s1.1 d1.x = n1 at *
  generalize advance w d2.p 0 none d2.y d2.inp s2.2 s2.1 d2.x = n2 at *
  have A := near_lower W h0 S M G1.P G1.B T1 T2'
  have D := near_lower W h0 S.symm M.symm G2.P G2.B T2 T1'
  have e : ∀ {a b : K}, -δ ≤ -1 * a + 1 * b → -δ ≤ -1 * b + 1 * a → |a - b| ≤ δ := fun h h' =>
    abs_le.mpr ⟨by linarith, by linarith⟩
  exact ⟨fun i hi => e (A.j i hi) (D.j i hi), fun k hk j hj => e (A.I k hk j hj) (D.I k hk j hj),
    fun k hk j hj => e (A.i k hk j hj) (D.i k hk j hj), fun k hk => e (A.u k hk) (D.u k hk),
    fun k hk => e (A.d k hk) (D.d k hk)⟩

/-- **C170.** Errors are not amplified: two runs in the same water whose initial concentrations, inflow concentrations
and boundary values differ by at most `δ` differ by at most `δ` everywhere after any number of steps of any size. -/
theorem C170_stable (W : Wired w) (h0 : 0 ≤ δ) (ds : List (StepData K × StepData K)) (s1 s2 : Conc K × Work K)
    (m1 : CleanMats w s1.2.mats) (m2 : CleanMats w s2.2.mats) (C1 : AllGe w 0 s1.1) (C2 : AllGe w 0 s2.1)
    (S : NearOn w δ s1.1 s2.1) (M : ∀ d ∈ ds, NearStep w δ d.1 d.2) (G : GoodPairs w ds s1 s2) :
    NearOn w δ (runSteps w 0 none (ds.map fun d => d.1) s1).1 (runSteps w 0 none (ds.map fun d => d.2) s2).1 := by
  induction ds generalizing s1 s2 with
  | nil => exact S
  | cons d ds ih =>
    simp only [GoodPairs, List.map_cons, GoodSteps, runSteps] at G ⊢
    exact ih _ _ (cleanMats_step m1) (cleanMats_step m2) (step_exact W m1 C1 G.1.1).2 (step_exact W m2 C2 G.2.1).2
      (C170_step W h0 m1 m2 C1 C2 S (M d List.mem_cons_self) G.1.1 G.2.1)
      (fun d hd => M d (List.mem_cons_of_mem _ hd)) ⟨G.1.2, G.2.2⟩

/-- **C170 (restart from a rounded state).** The same steps from two states: the distance never exceeds the initial
one; equal states stay equal. -/
theorem C170_start (W : Wired w) (h0 : 0 ≤ δ) (ds : List (StepData K × StepData K)) (s1 s2 : Conc K × Work K)
    (m1 : CleanMats w s1.2.mats) (m2 : CleanMats w s2.2.mats) (C1 : AllGe w 0 s1.1) (C2 : AllGe w 0 s2.1)
    (S : NearOn w δ s1.1 s2.1) (M : ∀ d ∈ ds, d.2.p = d.1.p ∧ d.2.y = d.1.y ∧ d.2.inp = d.1.inp)
    (G : GoodPairs w ds s1 s2) :
    NearOn w δ (runSteps w 0 none (ds.map fun d => d.1) s1).1 (runSteps w 0 none (ds.map fun d => d.2) s2).1 := by
  refine C170_stable W h0 ds s1 s2 m1 m2 C1 C2 S (fun d hd => ?_) G
  obtain ⟨hp, hy, hi⟩ := M d hd
  refine ⟨hp, hy, by rw [hi], by rw [hi], by simp [hi, h0], by simp [hi, h0], ?_⟩
  cases hb : d.1.inp.c_bc with
  | none => exact .inl ⟨rfl, by rw [hi, hb]⟩
  | some b => exact .inr ⟨b, b, rfl, by rw [hi, hb], by simp [h0]⟩

end

/-! ### A concrete case

The network of `Ex`: the second run starts with 2 instead of 1 and is fed 10 instead of 5; `δ = 5`. -/

namespace Ex

example : ∃ d1 d2 : StepData ℚ,
    NearOn w 5 (runSteps w 0 none [d1] (Conc.const 1, wk)).1 (runSteps w 0 none [d2] (Conc.const 2, wk)).1 := by
  obtain ⟨x1, G1⟩ := good inp rfl rfl 1 ⟨_, rfl, by simp⟩ (by simp [inp])
  obtain ⟨x2, G2⟩ := good inp2 rfl rfl 2 ⟨_, rfl, by simp⟩ (by simp [inp2])
  refine ⟨⟨p, y, inp, x1⟩, ⟨p, y, inp2, x2⟩, ?_⟩
  refine C170_stable wired (by norm_num) [(⟨p, y, inp, x1⟩, ⟨p, y, inp2, x2⟩)] _ _ clean clean
    (nonneg 1 (by norm_num)) (nonneg 2 (by norm_num)) ?_ ?_ ⟨⟨G1, trivial⟩, ⟨G2, trivial⟩⟩
  · constructor <;> intros <;> norm_num [Conc.const]
  · intro d hd
    rw [List.mem_singleton] at hd
    subst hd
    refine ⟨rfl, rfl, rfl, rfl, ?_, ?_, .inr ⟨_, _, rfl, rfl, ?_⟩⟩ <;> intros <;> norm_num [inp, inp2]

end Ex

end Pipedream.Quality
