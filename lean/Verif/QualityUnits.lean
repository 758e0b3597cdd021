import Verif.QualityMass

/-!
# The unit of concentration (C115)

Specification: all concentrations handed to the water-quality model — initial values, boundary values, inflow
concentrations and limits — are multiplied by one positive factor.
-/

namespace Pipedream.Quality

open Pipedream.Network Pipedream.Link Pipedream.Sweep

variable {K : Type*} [Field K] [LinearOrder K]

/-! ### Another unit -/

/-- Concentrations in another unit. -/
def Conc.inUnit (s : K) (c : Conc K) : Conc K :=
  ⟨fun i => s * c.j i, fun i => s * c.I i, fun i => s * c.i i, fun i => s * c.u i, fun i => s * c.d i⟩

/-- Inputs in another unit; the water flows are the same. -/
def Inputs.inUnit (s : K) (i : Inputs K) : Inputs K :=
  ⟨i.c_bc.map (fun c j => s * c j), fun j => s * i.c_0j j, i.Q_0j, fun j => s * i.c_0I j, i.Q_0I⟩

/-- A step in another unit. -/
def StepData.inUnit (s : K) (d : StepData K) : StepData K := ⟨d.p, d.y, d.inp.inUnit s, fun j => s * d.x j⟩

/-! ### Helpers -/

/-- Scratch arrays in another unit: the constant terms of the recurrences are concentrations. -/
def fwdUnit (s : K) (f : Fwd K) : Fwd K := ⟨f.T, f.U, fun i => s * f.V i, f.W⟩
def bwdUnit (s : K) (b : Bwd K) : Bwd K := ⟨b.O, b.X, fun i => s * b.Y i, b.Z⟩
def Work.inUnit (s : K) (wk : Work K) : Work K := ⟨wk.mats, fwdUnit s wk.f, bwdUnit s wk.b⟩
def coefUnit (s : K) (q : QCoef K) : QCoef K :=
  ⟨q.alpha, q.beta, q.chi, fun i => s * q.gamma i, q.kappa, q.lam, q.mu, fun i => s * q.eta i⟩

theorem safeDivide_mul (s a b : K) : safeDivide (s * a) b = s * safeDivide a b := by
  rw [safeDivide_eq, safeDivide_eq, mul_div_assoc]

theorem upd_mul (s : K) (a : ℕ → K) (i : ℕ) (v : K) :
    upd (fun j => s * a j) i (s * v) = fun j => s * upd a i v j := by
  funext j; simp only [upd]; split_ifs <;> rfl

theorem forRange_map {σ τ : Type*} (φ : σ → τ) (n : ℕ) (body : ℕ → σ → σ) (body' : ℕ → τ → τ)
    (h : ∀ k s, body' k (φ s) = φ (body k s)) (s : σ) : forRange n body' (φ s) = φ (forRange n body s) := by
  induction n with
  | zero => rfl
  | succ n ih => rw [forRange_succ, forRange_succ, ih, h]

theorem coeffs_unit (s : K) (nix : NodeIdx) (p : Params K) (y : Hydro K) (inp : Inputs K) (c : Conc K) :
    coeffs nix p y (inp.inUnit s) (c.inUnit s) = coefUnit s (coeffs nix p y inp c) := by
  have e1 : ∀ i, gammaIk y.dt (s * c.i i) (y.A i) (y.dx i) = s * gammaIk y.dt (c.i i) (y.A i) (y.dx i) := by
    intro i; unfold gammaIk; ring
  have e2 : ∀ I, etaIk (s * inp.c_0I I) (inp.Q_0I I) (y.A_S I) (y.h I) (s * c.I I) y.dt
      = s * etaIk (inp.c_0I I) (inp.Q_0I I) (y.A_S I) (y.h I) (c.I I) y.dt := by
    intro i; unfold etaIk; ring
  simp only [coeffs, coefUnit, Conc.inUnit, Inputs.inUnit, e1, e2]

theorem V_unit (s gamma T alpha eta kappa V lam U : K) :
    V_Ik (s * gamma) T alpha (s * eta) kappa (s * V) lam U = s * V_Ik gamma T alpha eta kappa V lam U := by
  unfold V_Ik
  rw [safeDivide_mul, show -alpha * (s * eta - kappa * (s * V)) = s * (-alpha * (eta - kappa * V)) by ring,
    safeDivide_mul, mul_add s]

theorem Y_unit (s gamma O chi eta mu Y lam X : K) :
    Y_Ik (s * gamma) O chi (s * eta) mu (s * Y) lam X = s * Y_Ik gamma O chi eta mu Y lam X :=
  V_unit s gamma O chi eta mu Y lam X

theorem forward_unit (s : K) (q : QCoef K) (NK : ℕ) (nk I1 i1 : ℕ → ℕ) (f : Fwd K) :
    forwardRecurrence (coefUnit s q) NK nk I1 i1 (fwdUnit s f) = fwdUnit s (forwardRecurrence q NK nk I1 i1 f) := by
  unfold forwardRecurrence
  refine forRange_map _ _ _ _ (fun k f => ?_) f
  unfold fwdSuperlink
  have h0 : fwdFirst (coefUnit s q) (I1 k) (i1 k) (fwdUnit s f) = fwdUnit s (fwdFirst q (I1 k) (i1 k) f) := by
    simp only [fwdFirst, fwdUnit, coefUnit, V_1k, safeDivide_mul, upd_mul]
  rw [h0]
  refine forRange_map _ _ _ _ (fun j f => ?_) _
  simp only [fwdNext, fwdUnit, coefUnit, V_unit, upd_mul]

theorem backward_unit (s : K) (q : QCoef K) (NK : ℕ) (nk IN iN : ℕ → ℕ) (b : Bwd K) :
    backwardRecurrence (coefUnit s q) NK nk IN iN (bwdUnit s b) = bwdUnit s (backwardRecurrence q NK nk IN iN b) := by
  unfold backwardRecurrence
  refine forRange_map _ _ _ _ (fun k b => ?_) b
  unfold bwdSuperlink
  have h0 : bwdFirst (coefUnit s q) (IN k) (iN k) (bwdUnit s b) = bwdUnit s (bwdFirst q (IN k) (iN k) b) := by
    simp only [bwdFirst, bwdUnit, coefUnit, V_1k, safeDivide_mul, upd_mul]
  rw [h0]
  refine forRange_map _ _ _ _ (fun j b => ?_) _
  simp only [bwdNext, bwdUnit, coefUnit, Y_unit, upd_mul]

/-- End relations in another unit. -/
def recUnit (s : K) (r : EndRec K) : EndRec K := ⟨r.X, s * r.Y, r.Z, r.U, s * r.V, r.W⟩
def linUnit (s : K) (l : EndLin K) : EndLin K := ⟨l.theta_u, l.sigma_u, s * l.xi_u, l.theta_d, l.sigma_d, s * l.xi_d⟩

theorem endRec_unit (s : K) (q : QCoef K) (f : Fwd K) (b : Bwd K) (I1 IN : ℕ) :
    endRec (coefUnit s q) (fwdUnit s f) (bwdUnit s b) I1 IN = recUnit s (endRec q f b I1 IN) := by
  have e : ∀ a b c d : K, safeDivide (s * a - b * (s * c)) d = s * safeDivide (a - b * c) d := by
    intro a b c d; rw [← safeDivide_mul]; congr 1; ring
  simp only [endRec, coefUnit, fwdUnit, bwdUnit, recUnit, e]

theorem endLin_unit (s : K) (p : Params K) (y : Hydro K) (c : Conc K) (k : ℕ) :
    endLin (endCoeffs p y (c.inUnit s) k) = linUnit s (endLin (endCoeffs p y c k)) := by
  have e : ∀ dt v A dx : K, gammaIk dt (s * v) A dx = s * gammaIk dt v A dx := by
    intros; unfold gammaIk; ring
  simp only [endLin, endCoeffs, linUnit, Conc.inUnit, e, safeDivide_mul]

theorem zetaU_unit (s : K) (r : EndRec K) (l : EndLin K) : zetaU (recUnit s r) (linUnit s l) = s * zetaU r l := by
  unfold zetaU dStar recUnit linUnit
  rw [← safeDivide_mul]
  congr 1
  ring

theorem zetaD_unit (s : K) (r : EndRec K) (l : EndLin K) : zetaD (recUnit s r) (linUnit s l) = s * zetaD r l := by
  unfold zetaD dStar recUnit linUnit
  rw [← safeDivide_mul]
  congr 1
  ring

section
variable (s : K) (w : Wiring) (p : Params K) (y : Hydro K) (inp : Inputs K) (wk : Work K) (c : Conc K)

theorem stepFwd_unit : stepFwd w p y (inp.inUnit s) (wk.inUnit s) (c.inUnit s) = fwdUnit s (stepFwd w p y inp wk c) := by
  unfold stepFwd stepCoef
  rw [coeffs_unit]
  exact forward_unit ..

theorem stepBwd_unit : stepBwd w p y (inp.inUnit s) (wk.inUnit s) (c.inUnit s) = bwdUnit s (stepBwd w p y inp wk c) := by
  unfold stepBwd stepCoef
  rw [coeffs_unit]
  exact backward_unit ..

theorem stepEndRec_unit (k : ℕ) :
    stepEndRec w p y (inp.inUnit s) (wk.inUnit s) (c.inUnit s) k = recUnit s (stepEndRec w p y inp wk c k) := by
  unfold stepEndRec
  rw [stepFwd_unit, stepBwd_unit, stepCoef, coeffs_unit]
  exact endRec_unit ..

theorem stepEndLin_unit (k : ℕ) : stepEndLin p y (c.inUnit s) k = linUnit s (stepEndLin p y c k) := endLin_unit ..

/-- The network of the step in another unit. -/
def netUnit (s : K) (net : QNet K) : QNet K :=
  { net with ends := { net.ends with zeta_u := fun k => s * net.ends.zeta_u k, zeta_d := fun k => s * net.ends.zeta_d k } }

theorem stepNet_unit :
    stepNet w p y (inp.inUnit s) (wk.inUnit s) (c.inUnit s) = netUnit s (stepNet w p y inp wk c) := by
  unfold stepNet netUnit
  simp only [stepEndRec_unit, stepEndLin_unit, zetaU_unit, zetaD_unit]
  rfl

theorem assembleD_unit (net : QNet K) (i : ℕ) : assembleD (netUnit s net) i = s * assembleD net i := by
  unfold assembleD netUnit
  simp only [addAt_apply, zero_add, mul_add, Finset.mul_sum]
  congr 1 <;>
  · refine Finset.sum_congr rfl fun k _ => ?_
    split_ifs
    · ring
    · rw [mul_zero]

theorem stepMats_unit : stepMats w p y (inp.inUnit s) (wk.inUnit s) (c.inUnit s) = stepMats w p y inp wk c := by
  unfold stepMats
  rw [stepNet_unit]
  rfl

theorem stepLhs_unit : stepLhs w p y (inp.inUnit s) (wk.inUnit s) (c.inUnit s) = stepLhs w p y inp wk c := by
  unfold stepLhs
  rw [stepMats_unit, stepNet_unit]
  rfl

theorem stepRhs_unit (i : ℕ) :
    stepRhs w p y (inp.inUnit s) (wk.inUnit s) (c.inUnit s) i = s * stepRhs w p y inp wk c i := by
  unfold stepRhs assembleB
  rw [stepNet_unit, assembleD_unit]
  have hb : (inp.inUnit s).c_bc.getD (c.inUnit s).j i = s * inp.c_bc.getD c.j i := by
    unfold Inputs.inUnit Conc.inUnit
    cases inp.c_bc <;> rfl
  rw [hb]
  show (if (stepNet w p y inp wk c).bc i = true then _ else _) = s * if (stepNet w p y inp wk c).bc i = true then _ else _
  split_ifs
  · rfl
  · simp only [netUnit, Inputs.inUnit, Conc.inUnit]; ring

theorem rawU_unit (cj : ℕ → K) (k : ℕ) : rawU w p y (inp.inUnit s) (wk.inUnit s) (c.inUnit s) (fun j => s * cj j) k
    = s * rawU w p y inp wk c cj k := by
  simp only [rawU, stepEndRec_unit, stepEndLin_unit, zetaU_unit]
  have h1 : rhoU (recUnit s (stepEndRec w p y inp wk c k)) (linUnit s (stepEndLin p y c k))
    = rhoU (stepEndRec w p y inp wk c k) (stepEndLin p y c k) := rfl
  have h2 : tauU (recUnit s (stepEndRec w p y inp wk c k)) (linUnit s (stepEndLin p y c k))
    = tauU (stepEndRec w p y inp wk c k) (stepEndLin p y c k) := rfl
  rw [h1, h2]; ring

theorem rawD_unit (cj : ℕ → K) (k : ℕ) : rawD w p y (inp.inUnit s) (wk.inUnit s) (c.inUnit s) (fun j => s * cj j) k
    = s * rawD w p y inp wk c cj k := by
  simp only [rawD, stepEndRec_unit, stepEndLin_unit, zetaD_unit]
  have h1 : rhoD (recUnit s (stepEndRec w p y inp wk c k)) (linUnit s (stepEndLin p y c k))
    = rhoD (stepEndRec w p y inp wk c k) (stepEndLin p y c k) := rfl
  have h2 : tauD (recUnit s (stepEndRec w p y inp wk c k)) (linUnit s (stepEndLin p y c k))
    = tauD (stepEndRec w p y inp wk c k) (stepEndLin p y c k) := rfl
  rw [h1, h2]; ring

theorem raw1_unit (cj : ℕ → K) (k : ℕ) : raw1 w p y (inp.inUnit s) (wk.inUnit s) (c.inUnit s) (fun j => s * cj j) k
    = s * raw1 w p y inp wk c cj k := by
  simp only [raw1, rawU_unit, stepEndLin_unit, linUnit]; ring

theorem rawNp1_unit (cj : ℕ → K) (k : ℕ) :
    rawNp1 w p y (inp.inUnit s) (wk.inUnit s) (c.inUnit s) (fun j => s * cj j) k
    = s * rawNp1 w p y inp wk c cj k := by
  simp only [rawNp1, rawD_unit, stepEndLin_unit, linUnit]; ring

end

variable [IsStrictOrderedRing K]

theorem limit_unit {s : K} (hs : 0 < s) (lo : K) (hi : Option K) (x : K) :
    limit (s * lo) (hi.map (s * ·)) (s * x) = s * limit lo hi x := by
  have h1 : (if s * x < s * lo then s * lo else s * x) = s * if x < lo then lo else x := by
    simp only [mul_lt_mul_iff_right₀ hs]; split_ifs <;> rfl
  unfold limit
  rw [h1]
  cases hi with
  | none => rfl
  | some m =>
    simp only [Option.map_some, gt_iff_lt, mul_lt_mul_iff_right₀ hs]
    split_ifs <;> rfl

def ccUnit (s : K) (v : CC K) : CC K := ⟨fun i => s * v.I i, fun i => s * v.i i⟩

theorem internals_unit {s : K} (hs : 0 < s) (f : Fwd K) (b : Bwd K) (lo : K) (hi : Option K) (c1 cN : ℕ → K)
    (i1 I1 nk : ℕ → ℕ) (NK : ℕ) (back : Bool) (v : CC K) :
    solveInternals (fwdUnit s f) (bwdUnit s b) (s * lo) (hi.map (s * ·)) (fun k => s * c1 k) (fun k => s * cN k)
      i1 I1 nk NK back (ccUnit s v) = ccUnit s (solveInternals f b lo hi c1 cN i1 I1 nk NK back v) := by
  have hf : ∀ a c U V W : K, c_i_f (s * a) (s * c) U (s * V) W = s * c_i_f a c U V W := by
    intros; unfold c_i_f; ring
  have hb : ∀ a c U V W : K, c_i_b (s * a) (s * c) U (s * V) W = s * c_i_b a c U V W := by
    intros; unfold c_i_b; ring
  have hI : ∀ a c X Y Z : K, c_I_b (s * a) (s * c) X (s * Y) Z = s * c_I_b a c X Y Z := by
    intros; unfold c_I_b; rw [← safeDivide_mul]; congr 1; ring
  have key : numbaSolveInternals (fwdUnit s f) (bwdUnit s b) (s * lo) (hi.map (s * ·)) (fun k => s * c1 k)
      (fun k => s * cN k) i1 I1 nk NK back (ccUnit s v)
      = ccUnit s (numbaSolveInternals f b lo hi c1 cN i1 I1 nk NK back v) := by
    unfold numbaSolveInternals
    refine forRange_map _ _ _ _ (fun k v => ?_) v
    have h0 : ∀ (n IN iN : ℕ) (v : CC K), forRange n (internalsNext (fwdUnit s f) (bwdUnit s b) (s * lo)
        (hi.map (s * ·)) (s * c1 k) (s * cN k) IN iN) (ccUnit s v)
        = ccUnit s (forRange n (internalsNext f b lo hi (c1 k) (cN k) IN iN) v) := by
      intro n IN iN v
      refine forRange_map _ _ _ _ (fun j v => ?_) v
      simp only [internalsNext, fwdUnit, bwdUnit, ccUnit, hf, hI, limit_unit hs, upd_mul]
    have h1 : (⟨upd (upd (ccUnit s v).I (I1 k) (s * c1 k)) (I1 k + nk k) (s * cN k), (ccUnit s v).i⟩ : CC K)
        = ccUnit s ⟨upd (upd v.I (I1 k) (c1 k)) (I1 k + nk k) (cN k), v.i⟩ := by
      simp only [ccUnit, upd_mul]
    unfold internalsSuperlink
    simp only []
    rw [h1, h0]
    cases back <;> simp only [ccUnit, fwdUnit, bwdUnit, hf, hb, upd_mul, if_true, if_false, Bool.false_eq_true]
  unfold solveInternals
  simp only []
  rw [key]
  simp only [ccUnit, limit_unit hs]

/-! ### C115 -/

/-- **C115, the superjunction system.** A vector solves the system exactly if its values in the other unit solve the
system in the other unit. -/
theorem C115_solver {s : K} (hs : 0 < s) (w : Wiring) (p : Params K) (y : Hydro K) (inp : Inputs K) (wk : Work K)
    (c : Conc K) (x : ℕ → K) :
    Solved w p y (inp.inUnit s) (wk.inUnit s) (c.inUnit s) (fun j => s * x j) ↔ Solved w p y inp wk c x := by
  unfold Solved Solves
  refine forall_congr' fun i => imp_congr_right fun _ => ?_
  rw [stepLhs_unit, stepRhs_unit]
  have : ∑ j ∈ Finset.range w.M, stepLhs w p y inp wk c i j * (s * x j)
      = s * ∑ j ∈ Finset.range w.M, stepLhs w p y inp wk c i j * x j := by
    rw [Finset.mul_sum]; exact Finset.sum_congr rfl fun _ _ => by ring
  rw [this]
  exact mul_right_inj' hs.ne'

theorem advance_unit {s : K} (hs : 0 < s) (w : Wiring) (p : Params K) (lo : K) (hi : Option K) (y : Hydro K)
    (inp : Inputs K) (wk : Work K) (c : Conc K) (x : ℕ → K) :
    advance w p (s * lo) (hi.map (s * ·)) y (inp.inUnit s) (wk.inUnit s) (c.inUnit s) (fun j => s * x j)
      = (advance w p lo hi y inp wk c x).inUnit s := by
  have hv : (⟨(c.inUnit s).I, (c.inUnit s).i⟩ : CC K) = ccUnit s ⟨c.I, c.i⟩ := rfl
  unfold advance
  simp only [limit_unit hs, raw1_unit, rawNp1_unit, rawU_unit, rawD_unit, stepFwd_unit, stepBwd_unit]
  rw [hv, internals_unit hs]
  rfl

theorem stepWork_unit (s : K) (w : Wiring) (p : Params K) (y : Hydro K) (inp : Inputs K) (wk : Work K) (c : Conc K) :
    stepWork w p y (inp.inUnit s) (wk.inUnit s) (c.inUnit s) = (stepWork w p y inp wk c).inUnit s := by
  unfold stepWork
  rw [stepMats_unit, stepFwd_unit, stepBwd_unit]
  rfl

/-- **C115.** Whatever the network, the hydraulics, the coefficients and the limits: after any sequence of steps every
concentration (and every scratch array) in the other unit is the factor times the one in the first unit. -/
theorem C115_units {s : K} (hs : 0 < s) (w : Wiring) (lo : K) (hi : Option K) (ds : List (StepData K))
    (st : Conc K × Work K) :
    runSteps w (s * lo) (hi.map (s * ·)) (ds.map (StepData.inUnit s)) (st.1.inUnit s, st.2.inUnit s)
      = ((runSteps w lo hi ds st).1.inUnit s, (runSteps w lo hi ds st).2.inUnit s) := by
  induction ds generalizing st with
  | nil => rfl
  | cons d ds ih =>
    simp only [List.map_cons, runSteps]
    rw [← ih]
    congr 1
    simp only [StepData.inUnit, advance_unit hs, stepWork_unit]

/-- The solver returned a solution in every step. -/
def SolvedRun (w : Wiring) (lo : K) (hi : Option K) : List (StepData K) → Conc K × Work K → Prop
  | [], _ => True
  | d :: ds, s => Solved w d.p d.y d.inp s.2 s.1 d.x ∧
      SolvedRun w lo hi ds (advance w d.p lo hi d.y d.inp s.2 s.1 d.x, stepWork w d.p d.y d.inp s.2 s.1)

/-- **C115, solver results.** The run in the other unit of the theorem above is one in which the solver returns
solutions exactly if the first run is. -/
theorem C115_solved {s : K} (hs : 0 < s) (w : Wiring) (lo : K) (hi : Option K) (ds : List (StepData K))
    (st : Conc K × Work K) :
    SolvedRun w (s * lo) (hi.map (s * ·)) (ds.map (StepData.inUnit s)) (st.1.inUnit s, st.2.inUnit s)
      ↔ SolvedRun w lo hi ds st := by
  induction ds generalizing st with
  | nil => exact Iff.rfl
  | cons d ds ih =>
    simp only [List.map_cons, SolvedRun]
    rw [← ih]
    refine and_congr (C115_solver hs w d.p d.y d.inp st.2 st.1 d.x) (iff_of_eq ?_)
    congr 1
    simp only [StepData.inUnit, advance_unit hs, stepWork_unit]

/-- The network of `Ex` in grams and in milligrams per litre, with a solver result in both. -/
example : ∃ x, let d : StepData ℚ := ⟨Ex.p, Ex.y, Ex.inp, x⟩
    SolvedRun Ex.w 0 (some 1000) [d.inUnit 1000] (Ex.c.inUnit 1000, Ex.wk.inUnit 1000) ∧
    (runSteps Ex.w 0 (some 1000) [d.inUnit 1000] (Ex.c.inUnit 1000, Ex.wk.inUnit 1000)).1
      = (runSteps Ex.w 0 (some 1) [d] (Ex.c, Ex.wk)).1.inUnit 1000 := by
  obtain ⟨x, hx⟩ := (C75_solvable (c := Ex.c) Ex.wired Ex.physical Ex.balance Ex.clean).1
  have hs : (0:ℚ) < 1000 := by norm_num
  refine ⟨x, ?_, ?_⟩
  · have := (C115_solved hs Ex.w 0 (some 1) [⟨Ex.p, Ex.y, Ex.inp, x⟩] (Ex.c, Ex.wk)).mpr ⟨hx, trivial⟩
    simpa using this
  · have := congrArg Prod.fst (C115_units hs Ex.w 0 (some 1) [⟨Ex.p, Ex.y, Ex.inp, x⟩] (Ex.c, Ex.wk))
    simpa using this

end Pipedream.Quality
