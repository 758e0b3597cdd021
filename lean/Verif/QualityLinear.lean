import Verif.QualityUnits

/-!
# Mixtures and comparison (C116, C117)

Two substances are carried by the same water. The limits are the defaults of the code, `c_min = 0` and
`c_max = np.inf` (nquality.py 98, 204–205).
-/

namespace Pipedream.Quality

open Pipedream.Network Pipedream.Link Pipedream.Sweep

variable {K : Type*} [Field K] [LinearOrder K] [IsStrictOrderedRing K]

/-! ### Specification -/

/-- `c3 = a c1 + b c2` everywhere in the network. -/
structure MixOn (w : Wiring) (a b : K) (c1 c2 c3 : Conc K) : Prop where
  j : ∀ i, i < w.M → c3.j i = a * c1.j i + b * c2.j i
  I : ∀ k, k < w.ix.NK → ∀ j, j ≤ w.ix.nk k →
    c3.I (w.ix.I_1k k + j) = a * c1.I (w.ix.I_1k k + j) + b * c2.I (w.ix.I_1k k + j)
  i : ∀ k, k < w.ix.NK → ∀ j, j < w.ix.nk k →
    c3.i (w.ix.i_1k k + j) = a * c1.i (w.ix.i_1k k + j) + b * c2.i (w.ix.i_1k k + j)
  u : ∀ k, k < w.ix.NK → c3.u k = a * c1.u k + b * c2.u k
  d : ∀ k, k < w.ix.NK → c3.d k = a * c1.d k + b * c2.d k

/-- The third step has the inflow and boundary concentrations `a c1 + b c2`; water and coefficients are the same. A
boundary value left out (`None`: the value is kept) is left out for all. -/
structure MixStep (w : Wiring) (a b : K) (d1 d2 d3 : StepData K) : Prop where
  p2 : d2.p = d1.p
  p3 : d3.p = d1.p
  y2 : d2.y = d1.y
  y3 : d3.y = d1.y
  Qj2 : d2.inp.Q_0j = d1.inp.Q_0j
  Qj3 : d3.inp.Q_0j = d1.inp.Q_0j
  QI2 : d2.inp.Q_0I = d1.inp.Q_0I
  QI3 : d3.inp.Q_0I = d1.inp.Q_0I
  cj : ∀ i, i < w.M → d3.inp.c_0j i = a * d1.inp.c_0j i + b * d2.inp.c_0j i
  cI : ∀ k, k < w.ix.NK → ∀ j, j ≤ w.ix.nk k → d3.inp.c_0I (w.ix.I_1k k + j)
    = a * d1.inp.c_0I (w.ix.I_1k k + j) + b * d2.inp.c_0I (w.ix.I_1k k + j)
  bc : (d1.inp.c_bc = none ∧ d2.inp.c_bc = none ∧ d3.inp.c_bc = none) ∨
    ∃ b1 b2 b3, d1.inp.c_bc = some b1 ∧ d2.inp.c_bc = some b2 ∧ d3.inp.c_bc = some b3 ∧
      ∀ i, i < w.M → w.bc i = true → b3 i = a * b1 i + b * b2 i

/-- `c1 ≤ c2` everywhere in the network. -/
structure LeOn (w : Wiring) (c1 c2 : Conc K) : Prop where
  j : ∀ i, i < w.M → c1.j i ≤ c2.j i
  I : ∀ k, k < w.ix.NK → ∀ j, j ≤ w.ix.nk k → c1.I (w.ix.I_1k k + j) ≤ c2.I (w.ix.I_1k k + j)
  i : ∀ k, k < w.ix.NK → ∀ j, j < w.ix.nk k → c1.i (w.ix.i_1k k + j) ≤ c2.i (w.ix.i_1k k + j)
  u : ∀ k, k < w.ix.NK → c1.u k ≤ c2.u k
  d : ∀ k, k < w.ix.NK → c1.d k ≤ c2.d k

/-- The second step has at least the inflow and boundary concentrations of the first. -/
structure LeStep (w : Wiring) (d1 d2 : StepData K) : Prop where
  p : d2.p = d1.p
  y : d2.y = d1.y
  Qj : d2.inp.Q_0j = d1.inp.Q_0j
  QI : d2.inp.Q_0I = d1.inp.Q_0I
  cj : ∀ i, i < w.M → d1.inp.c_0j i ≤ d2.inp.c_0j i
  cI : ∀ k, k < w.ix.NK → ∀ j, j ≤ w.ix.nk k → d1.inp.c_0I (w.ix.I_1k k + j) ≤ d2.inp.c_0I (w.ix.I_1k k + j)
  bc : (d1.inp.c_bc = none ∧ d2.inp.c_bc = none) ∨
    ∃ b1 b2, d1.inp.c_bc = some b1 ∧ d2.inp.c_bc = some b2 ∧ ∀ i, i < w.M → w.bc i = true → b1 i ≤ b2 i

/-- Physical data that balance water, no negative concentrations, and a solver result. -/
structure GoodStep (w : Wiring) (d : StepData K) (s : Conc K × Work K) : Prop where
  P : Physical w d.p d.y d.inp
  B : WaterBalance w d.y d.inp
  In : InGe w 0 d.inp s.1
  x : Solved w d.p d.y d.inp s.2 s.1 d.x

/-- … in every step. -/
def GoodSteps (w : Wiring) : List (StepData K) → Conc K × Work K → Prop
  | [], _ => True
  | d :: ds, s => GoodStep w d s ∧
      GoodSteps w ds (advance w d.p 0 none d.y d.inp s.2 s.1 d.x, stepWork w d.p d.y d.inp s.2 s.1)

/-! ### Helpers -/

section

variable {w : Wiring} {p : Params K} {y : Hydro K}

/-- With the default limits and no negative data the step solves the transport equations. -/
theorem step_exact {d : StepData K} {s : Conc K × Work K} (W : Wired w) (hm : CleanMats w s.2.mats)
    (C : AllGe w 0 s.1) (G : GoodStep w d s) :
    Transport w d.p d.y d.inp s.1 (advance w d.p 0 none d.y d.inp s.2 s.1 d.x) ∧
    AllGe w 0 (advance w d.p 0 none d.y d.inp s.2 s.1 d.x) := by
  obtain ⟨I, i, T, ends⟩ := transport_exists W G.P G.B hm G.x
  have R : ReactGe w 0 d.p := ⟨by simp, by simp, by simp⟩
  have L := transport_lower W G.P G.B R C G.In T
  have lim : ∀ {v : K}, 0 ≤ v → limit 0 none v = v := fun h => limit_eq h (by simp)
  have S := advance_eq (lo := 0) (hi := none) W G.P G.B T ends (fun i hi => lim (L.j i hi))
    (fun k hk j hj => lim (L.I k hk j hj)) (fun k hk j hj => lim (L.i k hk j hj))
    (fun k hk => lim (L.u k hk)) (fun k hk => lim (L.d k hk))
  have T' := transport_congr W S T
  exact ⟨T', transport_lower W G.P G.B R C G.In T'⟩

/-- The transport equations read old concentrations and inputs of the network only. -/
theorem transport_old {i1 i2 : Inputs K} {c1 c2 n : Conc K} (S : SameOn w c1 c2)
    (hQj : i2.Q_0j = i1.Q_0j) (hQI : i2.Q_0I = i1.Q_0I)
    (hcj : ∀ i, i < w.M → i2.c_0j i = i1.c_0j i)
    (hcI : ∀ k, k < w.ix.NK → ∀ j, j ≤ w.ix.nk k → i2.c_0I (w.ix.I_1k k + j) = i1.c_0I (w.ix.I_1k k + j))
    (hbc : ∀ i, i < w.M → w.bc i = true → i2.c_bc.getD c2.j i = i1.c_bc.getD c1.j i)
    (T : Transport w p y i1 c1 n) : Transport w p y i2 c2 n := by
  refine ⟨fun k hk => ⟨fun j hj => ?_, fun j hj => ?_, ?_, ?_⟩, fun i hi hb => ?_, fun i hi hb => ?_⟩
  · rw [← S.i k hk j hj]; exact (T.links k hk).link j hj
  · rw [← S.I k hk j hj, hQI, hcI k hk j hj]; exact (T.links k hk).node j hj
  · rw [← S.u k hk]; exact (T.links k hk).up
  · rw [← S.d k hk]; exact (T.links k hk).dn
  · rw [hbc i hi hb]; exact T.fixed i hi hb
  · rw [← S.j i hi, hQj, hcj i hi]; exact T.super i hi hb

theorem mixOn_iff {a b : K} {c1 c2 c3 : Conc K} : MixOn w a b c1 c2 c3 ↔ SameOn w (c1.comb a b c2) c3 :=
  ⟨fun h => ⟨fun i hi => (h.j i hi).symm, fun k hk j hj => (h.I k hk j hj).symm, fun k hk j hj => (h.i k hk j hj).symm,
      fun k hk => (h.u k hk).symm, fun k hk => (h.d k hk).symm⟩,
    fun h => ⟨fun i hi => (h.j i hi).symm, fun k hk j hj => (h.I k hk j hj).symm, fun k hk j hj => (h.i k hk j hj).symm,
      fun k hk => (h.u k hk).symm, fun k hk => (h.d k hk).symm⟩⟩

theorem mix_bc {a b : K} {d1 d2 d3 : StepData K} {c1 c2 c3 : Conc K} (M : MixStep w a b d1 d2 d3)
    (S : MixOn w a b c1 c2 c3) {i : ℕ} (hi : i < w.M) (hb : w.bc i = true) :
    d3.inp.c_bc.getD c3.j i = a * d1.inp.c_bc.getD c1.j i + b * d2.inp.c_bc.getD c2.j i := by
  rcases M.bc with ⟨h1, h2, h3⟩ | ⟨b1, b2, b3, h1, h2, h3, h⟩
  · rw [h1, h2, h3]; exact S.j i hi
  · rw [h1, h2, h3]; exact h i hi hb

theorem physical_inp {i1 i2 : Inputs K} (P : Physical w p y i1) (hj : i2.Q_0j = i1.Q_0j) (hI : i2.Q_0I = i1.Q_0I) :
    Physical w p y i2 :=
  ⟨P.dt, P.dx, P.A, P.D, P.Kr, P.AS, P.KrI, by rw [hI]; exact P.Q0I, P.dxu, P.Au, P.Du, P.dxd, P.Ad, P.Dd,
    P.V, P.Krj, by rw [hj]; exact P.Q0j⟩

theorem balance_inp {i1 i2 : Inputs K} (B : WaterBalance w y i1) (hj : i2.Q_0j = i1.Q_0j) (hI : i2.Q_0I = i1.Q_0I) :
    WaterBalance w y i2 := ⟨B.link, by rw [hI]; exact B.node, B.up, B.dn, by rw [hj]; exact B.super⟩

theorem sameOn_of_transport {inp : Inputs K} {c n1 n2 : Conc K} (W : Wired w) (P : Physical w p y inp)
    (B : WaterBalance w y inp) (T1 : Transport w p y inp c n1) (T2 : Transport w p y inp c n2) : SameOn w n1 n2 := by
  obtain ⟨h1, h2⟩ := transport_unique W P B T1 T2
  exact ⟨h1, fun k hk => (h2 k hk).1, fun k hk => (h2 k hk).2.1, fun k hk => (h2 k hk).2.2.1,
    fun k hk => (h2 k hk).2.2.2⟩

/-! ### C116 -/

/-- One step of two substances and of their mixture. -/
theorem mix_step (W : Wired w) {a b : K} (ha : 0 ≤ a) (hb : 0 ≤ b) {d1 d2 d3 : StepData K} {s1 s2 s3 : Conc K × Work K}
    (m1 : CleanMats w s1.2.mats) (m2 : CleanMats w s2.2.mats) (m3 : CleanMats w s3.2.mats)
    (C1 : AllGe w 0 s1.1) (C2 : AllGe w 0 s2.1) (S : MixOn w a b s1.1 s2.1 s3.1) (M : MixStep w a b d1 d2 d3)
    (G1 : GoodStep w d1 s1) (G2 : GoodStep w d2 s2) (x3 : Solved w d3.p d3.y d3.inp s3.2 s3.1 d3.x) :
    AllGe w 0 (advance w d1.p 0 none d1.y d1.inp s1.2 s1.1 d1.x) ∧
    AllGe w 0 (advance w d2.p 0 none d2.y d2.inp s2.2 s2.1 d2.x) ∧
    MixOn w a b (advance w d1.p 0 none d1.y d1.inp s1.2 s1.1 d1.x) (advance w d2.p 0 none d2.y d2.inp s2.2 s2.1 d2.x)
      (advance w d3.p 0 none d3.y d3.inp s3.2 s3.1 d3.x) := by
  obtain ⟨T1, N1⟩ := step_exact W m1 C1 G1
  obtain ⟨T2, N2⟩ := step_exact W m2 C2 G2
  refine ⟨N1, N2, mixOn_iff.mpr ?_⟩
  have nn : ∀ {u v : K}, 0 ≤ u → 0 ≤ v → 0 ≤ a * u + b * v := fun hu hv =>
    add_nonneg (mul_nonneg ha hu) (mul_nonneg hb hv)
  have P3 : Physical w d3.p d3.y d3.inp := by
    rw [M.p3, M.y3]; exact physical_inp G1.P M.Qj3 M.QI3
  have B3 : WaterBalance w d3.y d3.inp := by
    rw [M.y3]; exact balance_inp G1.B M.Qj3 M.QI3
  have C3 : AllGe w 0 s3.1 :=
    ⟨fun i hi => by rw [S.j i hi]; exact nn (C1.j i hi) (C2.j i hi),
      fun k hk j hj => by rw [S.I k hk j hj]; exact nn (C1.I k hk j hj) (C2.I k hk j hj),
      fun k hk j hj => by rw [S.i k hk j hj]; exact nn (C1.i k hk j hj) (C2.i k hk j hj),
      fun k hk => by rw [S.u k hk]; exact nn (C1.u k hk) (C2.u k hk),
      fun k hk => by rw [S.d k hk]; exact nn (C1.d k hk) (C2.d k hk)⟩
  have In3 : InGe w 0 d3.inp s3.1 := by
    refine ⟨fun i hi hb' => ?_, fun i hi hb' => ?_, fun k hk j hj => ?_⟩
    · rw [mix_bc M S hi hb']; exact nn (G1.In.bc i hi hb') (G2.In.bc i hi hb')
    · have h1 := G1.In.j i hi hb'
      have h2 := G2.In.j i hi hb'
      rw [M.Qj2] at h2
      rw [M.Qj3, M.cj i hi]
      have := nn (by linarith : 0 ≤ d1.inp.Q_0j i * d1.inp.c_0j i) (by linarith : 0 ≤ d1.inp.Q_0j i * d2.inp.c_0j i)
      rw [mul_zero]; linarith
    · have h1 := G1.In.I k hk j hj
      have h2 := G2.In.I k hk j hj
      rw [M.QI2] at h2
      rw [M.QI3, M.cI k hk j hj]
      have := nn (by linarith : 0 ≤ d1.inp.Q_0I (w.ix.I_1k k + j) * d1.inp.c_0I (w.ix.I_1k k + j))
        (by linarith : 0 ≤ d1.inp.Q_0I (w.ix.I_1k k + j) * d2.inp.c_0I (w.ix.I_1k k + j))
      rw [mul_zero]; linarith
  obtain ⟨T3, -⟩ := step_exact W m3 C3 ⟨P3, B3, In3, x3⟩
  have T2' : Transport w d1.p d1.y d2.inp s2.1 (advance w d2.p 0 none d2.y d2.inp s2.2 s2.1 d2.x) := by
    have := T2; rw [M.p2, M.y2] at this ⊢; exact this
  have Tc := transport_comb a b M.Qj2 M.QI2 T1 T2'
  have Tc' : Transport w d3.p d3.y d3.inp s3.1
      ((advance w d1.p 0 none d1.y d1.inp s1.2 s1.1 d1.x).comb a b (advance w d2.p 0 none d2.y d2.inp s2.2 s2.1 d2.x)) := by
    have := transport_old (i1 := d1.inp.comb a b d2.inp s1.1 s2.1) (i2 := d3.inp) (mixOn_iff.mp S) M.Qj3 M.QI3 (fun i hi => M.cj i hi) (fun k hk j hj => M.cI k hk j hj)
      (fun i hi hb' => mix_bc M S hi hb') Tc
    rw [M.p3, M.y3]
    exact this
  exact sameOn_of_transport W P3 B3 Tc' T3

/-- **C116.** Superposition: start two substances and a mixture `a c1 + b c2` of them in the same water, feed the third
model with the mixture of the inflows and boundary values: after any number of steps its concentrations are the
same mixture of the concentrations of the two, at every superjunction, junction, link and pipe end. -/
theorem C116_superposition (W : Wired w) {a b : K} (ha : 0 ≤ a) (hb : 0 ≤ b)
    (ds : List (StepData K × StepData K × StepData K)) (s1 s2 s3 : Conc K × Work K)
    (m1 : CleanMats w s1.2.mats) (m2 : CleanMats w s2.2.mats) (m3 : CleanMats w s3.2.mats)
    (C1 : AllGe w 0 s1.1) (C2 : AllGe w 0 s2.1) (S : MixOn w a b s1.1 s2.1 s3.1)
    (M : ∀ d ∈ ds, MixStep w a b d.1 d.2.1 d.2.2)
    (G1 : GoodSteps w (ds.map fun d => d.1) s1) (G2 : GoodSteps w (ds.map fun d => d.2.1) s2)
    (x3 : SolvedRun w 0 none (ds.map fun d => d.2.2) s3) :
    MixOn w a b (runSteps w 0 none (ds.map fun d => d.1) s1).1 (runSteps w 0 none (ds.map fun d => d.2.1) s2).1
      (runSteps w 0 none (ds.map fun d => d.2.2) s3).1 := by
  induction ds generalizing s1 s2 s3 with
  | nil => exact S
  | cons d ds ih =>
    simp only [List.map_cons, GoodSteps, SolvedRun, runSteps] at G1 G2 x3 ⊢
    obtain ⟨N1, N2, S'⟩ := mix_step W ha hb m1 m2 m3 C1 C2 S (M d List.mem_cons_self) G1.1 G2.1 x3.1
    exact ih _ _ _ (cleanMats_step m1) (cleanMats_step m2) (cleanMats_step m3) N1 N2 S'
      (fun d hd => M d (List.mem_cons_of_mem _ hd)) G1.2 G2.2 x3.2

/-! ### C117 -/

/-- One step of a smaller and a larger load. -/
theorem le_step (W : Wired w) {d1 d2 : StepData K} {s1 s2 : Conc K × Work K}
    (m1 : CleanMats w s1.2.mats) (m2 : CleanMats w s2.2.mats) (C1 : AllGe w 0 s1.1) (S : LeOn w s1.1 s2.1)
    (M : LeStep w d1 d2) (G1 : GoodStep w d1 s1) (x2 : Solved w d2.p d2.y d2.inp s2.2 s2.1 d2.x) :
    AllGe w 0 (advance w d1.p 0 none d1.y d1.inp s1.2 s1.1 d1.x) ∧
    LeOn w (advance w d1.p 0 none d1.y d1.inp s1.2 s1.1 d1.x) (advance w d2.p 0 none d2.y d2.inp s2.2 s2.1 d2.x) := by
  obtain ⟨T1, N1⟩ := step_exact W m1 C1 G1
  have P2 : Physical w d2.p d2.y d2.inp := by rw [M.p, M.y]; exact physical_inp G1.P M.Qj M.QI
  have B2 : WaterBalance w d2.y d2.inp := by rw [M.y]; exact balance_inp G1.B M.Qj M.QI
  have hbc : ∀ i, i < w.M → w.bc i = true → d1.inp.c_bc.getD s1.1.j i ≤ d2.inp.c_bc.getD s2.1.j i := by
    intro i hi hb
    rcases M.bc with ⟨h1, h2⟩ | ⟨b1, b2, h1, h2, h⟩
    · rw [h1, h2]; exact S.j i hi
    · rw [h1, h2]; exact h i hi hb
  have C2 : AllGe w 0 s2.1 :=
    ⟨fun i hi => (C1.j i hi).trans (S.j i hi), fun k hk j hj => (C1.I k hk j hj).trans (S.I k hk j hj),
      fun k hk j hj => (C1.i k hk j hj).trans (S.i k hk j hj), fun k hk => (C1.u k hk).trans (S.u k hk),
      fun k hk => (C1.d k hk).trans (S.d k hk)⟩
  have In2 : InGe w 0 d2.inp s2.1 := by
    refine ⟨fun i hi hb => (G1.In.bc i hi hb).trans (hbc i hi hb), fun i hi hb => ?_, fun k hk j hj => ?_⟩
    · refine (G1.In.j i hi hb).trans' (by rw [M.Qj]) |>.trans ?_
      rw [M.Qj]
      exact mul_le_mul_of_nonneg_left (M.cj i hi) (G1.P.Q0j i hi hb)
    · refine (G1.In.I k hk j hj).trans' (by rw [M.QI]) |>.trans ?_
      rw [M.QI]
      exact mul_le_mul_of_nonneg_left (M.cI k hk j hj) (G1.P.Q0I k hk j hj)
  obtain ⟨T2, -⟩ := step_exact W m2 C2 ⟨P2, B2, In2, x2⟩
  refine ⟨N1, ?_⟩
  have T2' : Transport w d1.p d1.y d2.inp s2.1 (advance w d2.p 0 none d2.y d2.inp s2.2 s2.1 d2.x) := by
    have := T2; rw [M.p, M.y] at this ⊢; exact this
  have Tc := transport_comb (-1) 1 M.Qj M.QI T1 T2'
  have Pc : Physical w d1.p d1.y (d1.inp.comb (-1) 1 d2.inp s1.1 s2.1) := physical_inp G1.P rfl rfl
  have Bc : WaterBalance w d1.y (d1.inp.comb (-1) 1 d2.inp s1.1 s2.1) := balance_inp G1.B rfl rfl
  have L := transport_lower (m := 0) W Pc Bc ⟨by simp, by simp, by simp⟩
    (c := s1.1.comb (-1) 1 s2.1)
    ⟨fun i hi => by have := S.j i hi; simp only [Conc.comb]; linarith,
      fun k hk j hj => by have := S.I k hk j hj; simp only [Conc.comb]; linarith,
      fun k hk j hj => by have := S.i k hk j hj; simp only [Conc.comb]; linarith,
      fun k hk => by have := S.u k hk; simp only [Conc.comb]; linarith,
      fun k hk => by have := S.d k hk; simp only [Conc.comb]; linarith⟩
    ⟨fun i hi hb => by have := hbc i hi hb; simp only [Inputs.comb, Option.getD_some]; linarith,
      fun i hi hb => by
        have := mul_le_mul_of_nonneg_left (M.cj i hi) (G1.P.Q0j i hi hb)
        simp only [Inputs.comb]; linarith,
      fun k hk j hj => by
        have := mul_le_mul_of_nonneg_left (M.cI k hk j hj) (G1.P.Q0I k hk j hj)
        simp only [Inputs.comb]; linarith⟩ Tc
  exact ⟨fun i hi => by have := L.j i hi; simp only [Conc.comb] at this; linarith,
      fun k hk j hj => by have := L.I k hk j hj; simp only [Conc.comb] at this; linarith,
      fun k hk j hj => by have := L.i k hk j hj; simp only [Conc.comb] at this; linarith,
      fun k hk => by have := L.u k hk; simp only [Conc.comb] at this; linarith,
      fun k hk => by have := L.d k hk; simp only [Conc.comb] at this; linarith⟩

/-- **C117.** More contaminant in, nowhere less contaminant later: if one run starts with at least the concentrations
of another and receives at least its inflow and boundary concentrations, it keeps at least its concentrations in
the whole network for any number of steps. -/
theorem C117_comparison (W : Wired w) (ds : List (StepData K × StepData K)) (s1 s2 : Conc K × Work K)
    (m1 : CleanMats w s1.2.mats) (m2 : CleanMats w s2.2.mats) (C1 : AllGe w 0 s1.1) (S : LeOn w s1.1 s2.1)
    (M : ∀ d ∈ ds, LeStep w d.1 d.2) (G1 : GoodSteps w (ds.map fun d => d.1) s1)
    (x2 : SolvedRun w 0 none (ds.map fun d => d.2) s2) :
    LeOn w (runSteps w 0 none (ds.map fun d => d.1) s1).1 (runSteps w 0 none (ds.map fun d => d.2) s2).1 := by
  induction ds generalizing s1 s2 with
  | nil => exact S
  | cons d ds ih =>
    simp only [List.map_cons, GoodSteps, SolvedRun, runSteps] at G1 x2 ⊢
    obtain ⟨N1, S'⟩ := le_step W m1 m2 C1 S (M d List.mem_cons_self) G1.1 x2.1
    exact ih _ _ (cleanMats_step m1) (cleanMats_step m2) N1 S'
      (fun d hd => M d (List.mem_cons_of_mem _ hd)) G1.2 x2.2

end

/-! ### A concrete case

The network of `Ex`: substance 1 as there, substance 2 with twice the inflow concentration, and `3 c1 + 2 c2`. -/

namespace Ex

def inp2 : Inputs ℚ := ⟨some fun _ => 4, fun _ => 10, fun _ => 2, fun _ => 0, fun _ => 0⟩
def inp3 : Inputs ℚ := ⟨some fun _ => 14, fun _ => 35, fun _ => 2, fun _ => 0, fun _ => 0⟩

theorem nonneg (v : ℚ) (hv : 0 ≤ v) : AllGe w 0 (Conc.const v) := by
  constructor <;> simp [Conc.const, hv]

theorem good (i : Inputs ℚ) (hj : i.Q_0j = inp.Q_0j) (hI : i.Q_0I = inp.Q_0I) (v : ℚ) (hb : ∃ b, i.c_bc = some b ∧ ∀ j, 0 ≤ b j)
    (h0 : ∀ j, 0 ≤ i.c_0j j) : ∃ x, GoodStep w ⟨p, y, i, x⟩ (Conc.const v, wk) := by
  have P := physical_inp (i2 := i) physical hj hI
  have B := balance_inp (i2 := i) balance hj hI
  obtain ⟨x, hx⟩ := (C75_solvable (c := Conc.const v) wired P B clean).1
  obtain ⟨b, hb1, hb2⟩ := hb
  refine ⟨x, P, B, ⟨fun j _ _ => ?_, fun j hj' hb' => ?_, fun k hk j hj' => ?_⟩, hx⟩
  · rw [hb1]; exact hb2 j
  · exact mul_le_mul_of_nonneg_left (h0 j) (P.Q0j j hj' hb')
  · simp [hI, inp]

example : ∃ d1 d2 d3 : StepData ℚ,
    MixOn w 3 2 (runSteps w 0 none [d1] (Conc.const 1, wk)).1 (runSteps w 0 none [d2] (Conc.const 2, wk)).1
      (runSteps w 0 none [d3] (Conc.const 7, wk)).1 ∧
    LeOn w (runSteps w 0 none [d1] (Conc.const 1, wk)).1 (runSteps w 0 none [d2] (Conc.const 2, wk)).1 := by
  obtain ⟨x1, G1⟩ := good inp rfl rfl 1 ⟨_, rfl, by simp⟩ (by simp [inp])
  obtain ⟨x2, G2⟩ := good inp2 rfl rfl 2 ⟨_, rfl, by simp⟩ (by simp [inp2])
  obtain ⟨x3, G3⟩ := good inp3 rfl rfl 7 ⟨_, rfl, by simp⟩ (by simp [inp3])
  refine ⟨⟨p, y, inp, x1⟩, ⟨p, y, inp2, x2⟩, ⟨p, y, inp3, x3⟩, ?_, ?_⟩
  · refine C116_superposition wired (by norm_num) (by norm_num) [(⟨p, y, inp, x1⟩, ⟨p, y, inp2, x2⟩, ⟨p, y, inp3, x3⟩)]
      _ _ _ clean clean clean (nonneg 1 (by norm_num)) (nonneg 2 (by norm_num)) ?_ ?_ ⟨G1, trivial⟩ ⟨G2, trivial⟩
      ⟨G3.x, trivial⟩
    · constructor <;> intros <;> norm_num [Conc.const]
    · intro d hd
      rw [List.mem_singleton] at hd
      subst hd
      refine ⟨rfl, rfl, rfl, rfl, rfl, rfl, rfl, rfl, ?_, ?_, .inr ⟨_, _, _, rfl, rfl, rfl, ?_⟩⟩ <;> intros <;>
        norm_num [inp, inp2, inp3]
  · refine C117_comparison wired [(⟨p, y, inp, x1⟩, ⟨p, y, inp2, x2⟩)] _ _ clean clean (nonneg 1 (by norm_num)) ?_ ?_
      ⟨G1, trivial⟩ ⟨G2.x, trivial⟩
    · constructor <;> intros <;> norm_num [Conc.const]
    · intro d hd
      rw [List.mem_singleton] at hd
      subst hd
      refine ⟨rfl, rfl, rfl, rfl, ?_, ?_, .inr ⟨_, _, rfl, rfl, ?_⟩⟩ <;> intros <;> norm_num [inp, inp2]

end Ex

end Pipedream.Quality
