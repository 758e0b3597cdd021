import Verif.QualityMax
import Verif.MMatrix

/-! # Properties of the water-quality step: C53–C58, C74–C76 -/

set_option linter.unusedSectionVars false

namespace Pipedream.Quality

open Pipedream.Network Pipedream.Link Pipedream.Sweep

variable {K : Type*} [Field K] [LinearOrder K]

/-! ### C53: limits -/

theorem limit_ge {lo : K} {hi : Option K} (h : ∀ m, hi = some m → lo ≤ m) (x : K) : lo ≤ limit lo hi x := by
  unfold limit
  rcases hi with _ | m
  · simp only; split_ifs with h1
    · exact le_rfl
    · exact not_lt.mp h1
  · have := h m rfl
    simp only
    by_cases h1 : x < lo
    · simp only [h1, if_true]; split_ifs <;> first | exact this | exact le_rfl
    · simp only [h1, if_false]; split_ifs
      · exact this
      · exact not_lt.mp h1

theorem limit_le {lo m : K} (x : K) : limit lo (some m) x ≤ m := by
  unfold limit
  simp only
  split_ifs with h1 h2 h3
  · exact le_rfl
  · exact not_lt.mp h2
  · exact le_rfl
  · exact not_lt.mp h3

theorem limit_eq {lo : K} {hi : Option K} {x : K} (h1 : lo ≤ x) (h2 : ∀ m, hi = some m → x ≤ m) :
    limit lo hi x = x := by
  unfold limit
  rw [if_neg (not_lt.mpr h1)]
  rcases hi with _ | m
  · rfl
  · exact if_neg (not_lt.mpr (h2 m rfl))

/-- `x` respects the configured limits (`none` is infinity). -/
def InLimits (lo : K) (hi : Option K) (x : K) : Prop := lo ≤ x ∧ ∀ m, hi = some m → x ≤ m

theorem inLimits_limit {lo : K} {hi : Option K} (h : ∀ m, hi = some m → lo ≤ m) (x : K) :
    InLimits lo hi (limit lo hi x) := by
  refine ⟨limit_ge h x, fun m hm => ?_⟩
  subst hm
  exact limit_le x

/-- Everything that may change from one step to the next: parameters, hydraulics, inputs, and what the
linear solver returned (any vector). -/
structure StepData (K : Type*) where
  p : Params K
  y : Hydro K
  inp : Inputs K
  x : ℕ → K

/-- Concentrations and scratch arrays after a sequence of steps. -/
def runSteps (w : Wiring) (lo : K) (hi : Option K) : List (StepData K) → Conc K × Work K → Conc K × Work K
  | [], s => s
  | d :: ds, s => runSteps w lo hi ds
      (advance w d.p lo hi d.y d.inp s.2 s.1 d.x, stepWork w d.p d.y d.inp s.2 s.1)

/-- Every stored concentration respects the limits. -/
structure AllInLimits (lo : K) (hi : Option K) (c : Conc K) : Prop where
  j : ∀ i, InLimits lo hi (c.j i)
  I : ∀ i, InLimits lo hi (c.I i)
  i : ∀ i, InLimits lo hi (c.i i)
  u : ∀ i, InLimits lo hi (c.u i)
  d : ∀ i, InLimits lo hi (c.d i)

/-- **C53.** After any non-empty sequence of steps — whatever the hydraulics, inputs, coefficients and
solver results — every concentration is within the limits. (The constructor performs one step itself.) -/
theorem C53_limits (w : Wiring) {lo : K} {hi : Option K} (h : ∀ m, hi = some m → lo ≤ m)
    (ds : List (StepData K)) (hd : ds ≠ []) (s : Conc K × Work K) :
    AllInLimits lo hi (runSteps w lo hi ds s).1 := by
  have one : ∀ (d : StepData K) (s : Conc K × Work K), AllInLimits lo hi (advance w d.p lo hi d.y d.inp s.2 s.1 d.x) :=
    fun d s => ⟨fun _ => inLimits_limit h _, fun _ => inLimits_limit h _, fun _ => inLimits_limit h _,
      fun _ => inLimits_limit h _, fun _ => inLimits_limit h _⟩
  have inv : ∀ (ds : List (StepData K)) s, AllInLimits lo hi s.1 → AllInLimits lo hi (runSteps w lo hi ds s).1 := by
    intro ds
    induction ds with
    | nil => intro s hs; exact hs
    | cons d ds ih => intro s _; exact ih _ (one d s)
  rcases ds with _ | ⟨d, ds⟩
  · exact absurd rfl hd
  · exact inv ds _ (one d s)

example : ∀ m, (some 5 : Option ℚ) = some m → (0:ℚ) ≤ m := by rintro m ⟨⟩; norm_num

/-! ### C54: the internal solve -/

/-- The computed internals equal the exact solution when no limit is active on the computed values. -/
theorem internals_unlimited {q : QCoef K} {n : ℕ} {T U V W O X Y Z : ℕ → K} (hn : 1 ≤ n)
    (F : FwdRel q n T U V W) (B : BwdRel q n O X Y Z) (fp : FwdPiv q n T U) (bp : BwdPiv q n O X)
    (xp : ∀ j, 1 ≤ j → j < n → X j ≠ 0) {lo : K} {hi : Option K} {back : Bool} {cI ci : ℕ → K} {c1 cN : K}
    (R : IntRel U V W X Y Z lo hi c1 cN n back cI ci)
    (hi' : ∀ j, 1 ≤ j → j < n → ci j = c_i_f (cI (j + 1)) c1 (U j) (V j) (W j))
    (hI : ∀ j, 1 ≤ j → j < n → cI j = c_I_b (c_i_f (cI (j + 1)) c1 (U j) (V j) (W j)) cN (X j) (Y j) (Z j)) :
    Interior q n cI ci := by
  obtain ⟨eI, ei, S, h0, hN⟩ := interior_exists hn F fp c1 cN
  have fs := fwd_sound F fp S
  have bs := bwd_sound B bp S
  have hJ : ∀ m, ∀ j, j + m = n → cI j = eI j := by
    intro m
    induction m with
    | zero => intro j hj; obtain rfl : j = n := by omega
              rw [R.last, hN]
    | succ m ih =>
      intro j hj
      rcases Nat.eq_zero_or_pos j with h | h1
      · subst h; rw [R.first, h0]
      · have hjn : j < n := by omega
        have e : c_i_f (cI (j+1)) c1 (U j) (V j) (W j) = ei j := by
          rw [ih (j+1) (by omega), c_i_f, fs j hjn, h0]
        rw [hI j h1 hjn, e, c_I_b, safeDivide_of_ne _ (xp j h1 hjn), div_eq_iff (xp j h1 hjn), bs j hjn, hN]
        ring
  have hJ' : ∀ j, j ≤ n → cI j = eI j := fun j hj => hJ (n - j) j (by omega)
  have hQ : ∀ j, j < n → ci j = ei j := by
    intro j hj
    rcases Nat.eq_zero_or_pos j with h | h1
    · subst h
      rw [R.link0]
      cases back
      · simp only [Bool.false_eq_true, if_false]
        rw [hJ' 1 (by omega), c_i_f, fs 0 hj, h0]
      · simp only [if_true]
        rw [c_i_b, bs 0 hj, h0, hN]
    · rw [hi' j h1 hj, hJ' (j+1) (by omega), c_i_f, fs j hj, h0]
  refine ⟨fun j hj => ?_, fun j hj => ?_⟩
  · rw [hJ' j hj.le, hQ j hj, hJ' (j+1) hj]; exact S.link j hj
  · rw [hQ j (by omega), hJ' (j+1) (by omega), hQ (j+1) hj]; exact S.node j hj

/-- All divisors met while eliminating superlink `k` are non-zero. -/
structure Pivots (w : Wiring) (p : Params K) (y : Hydro K) (inp : Inputs K) (wk : Work K) (c : Conc K)
    (k : ℕ) : Prop where
  fwd : FwdPiv ((stepCoef w p y inp c).slice (w.ix.i_1k k) (w.ix.I_1k k)) (w.ix.nk k)
    (fun j => (stepFwd w p y inp wk c).T (w.ix.i_1k k + j)) (fun j => (stepFwd w p y inp wk c).U (w.ix.I_1k k + j))
  bwd : BwdPiv ((stepCoef w p y inp c).slice (w.ix.i_1k k) (w.ix.I_1k k)) (w.ix.nk k)
    (fun j => (stepBwd w p y inp wk c).O (w.ix.i_1k k + j)) (fun j => (stepBwd w p y inp wk c).X (w.ix.I_1k k + j))
  X : ∀ j, 1 ≤ j → j < w.ix.nk k → (stepBwd w p y inp wk c).X (w.ix.I_1k k + j) ≠ 0
  kappa : (stepCoef w p y inp c).kappa (w.ix.I_1k k) ≠ 0
  mu : (stepCoef w p y inp c).mu (w.ix.I_1k k + w.ix.nk k) ≠ 0
  chi_u : (endCoeffs p y c k).chi_u ≠ 0
  alpha_d : (endCoeffs p y c k).alpha_d ≠ 0
  D : dStar (stepEndRec w p y inp wk c k) (stepEndLin p y c k) ≠ 0

section
variable {w : Wiring} {p : Params K} {y : Hydro K} {inp : Inputs K} {wk : Work K} {c : Conc K}

theorem stepFwd_rel (W : Wired w) {k : ℕ} (hk : k < w.ix.NK) :
    FwdRel ((stepCoef w p y inp c).slice (w.ix.i_1k k) (w.ix.I_1k k)) (w.ix.nk k)
      (fun j => (stepFwd w p y inp wk c).T (w.ix.i_1k k + j)) (fun j => (stepFwd w p y inp wk c).U (w.ix.I_1k k + j))
      (fun j => (stepFwd w p y inp wk c).V (w.ix.I_1k k + j)) (fun j => (stepFwd w p y inp wk c).W (w.ix.I_1k k + j)) :=
  forwardRecurrence_spec _ _ _ _ _ _ W.layout k hk

theorem stepBwd_rel (W : Wired w) {k : ℕ} (hk : k < w.ix.NK) :
    BwdRel ((stepCoef w p y inp c).slice (w.ix.i_1k k) (w.ix.I_1k k)) (w.ix.nk k)
      (fun j => (stepBwd w p y inp wk c).O (w.ix.i_1k k + j)) (fun j => (stepBwd w p y inp wk c).X (w.ix.I_1k k + j))
      (fun j => (stepBwd w p y inp wk c).Y (w.ix.I_1k k + j)) (fun j => (stepBwd w p y inp wk c).Z (w.ix.I_1k k + j)) :=
  backwardRecurrence_spec _ _ _ _ _ _ _ _ W.layout (fun _ _ => rfl) (fun _ _ => rfl) k hk

/-- With the raw end values, any solution of the interior equations between them completes to a
solution of all equations of the superlink. -/
theorem linkTransport_of_interior (W : Wired w) {k : ℕ} (hk : k < w.ix.NK) (Pv : Pivots w p y inp wk c k)
    {new : Conc K} {x : ℕ → K} (hju : new.j (w.Ju k) = x (w.Ju k)) (hjd : new.j (w.Jd k) = x (w.Jd k))
    (hu : new.u k = rawU w p y inp wk c x k) (hd : new.d k = rawD w p y inp wk c x k)
    (h1 : new.I (w.ix.I_1k k + 0) = raw1 w p y inp wk c x k)
    (hN : new.I (w.ix.I_1k k + w.ix.nk k) = rawNp1 w p y inp wk c x k)
    (S : Interior ((stepCoef w p y inp c).slice (w.ix.i_1k k) (w.ix.I_1k k)) (w.ix.nk k)
      (fun j => new.I (w.ix.I_1k k + j)) (fun j => new.i (w.ix.i_1k k + j))) :
    LinkTransport w p y inp c new k := by
  have hn := W.layout.pos k hk
  have es := ends_sound (r := stepEndRec w p y inp wk c k) Pv.chi_u Pv.alpha_d Pv.D (x (w.Ju k)) (x (w.Jd k))
  obtain ⟨e1, e2, e3, e4⟩ := es
  have f := fwd_sound (stepFwd_rel (wk := wk) W hk) Pv.fwd S (w.ix.nk k - 1) (by omega)
  have b := bwd_sound (stepBwd_rel (wk := wk) W hk) Pv.bwd S 0 (by omega)
  rw [show w.ix.nk k - 1 + 1 = w.ix.nk k by omega] at f
  simp only [h1, hN] at f b
  have hIN : w.ix.I_Nk k = w.ix.I_1k k + (w.ix.nk k - 1) := by
    show w.ix.I_1k k + w.ix.nk k - 1 = _; omega
  have hIN1 : w.ix.I_Nk k + 1 = w.ix.I_1k k + w.ix.nk k := by rw [hIN]; omega
  refine (linkTransport_iff hk W).mpr ⟨S, ⟨?_, ?_, ?_, ?_⟩⟩
  · -- first junction
    have hkap := Pv.kappa
    have e3' : new.u k = (stepEndRec w p y inp wk c k).X * raw1 w p y inp wk c x k
        + (stepEndRec w p y inp wk c k).Y + (stepEndRec w p y inp wk c k).Z * rawNp1 w p y inp wk c x k := by
      rw [hu]; exact e3
    simp only [stepEndRec, endRec, safeDivide_of_ne _ hkap] at e3'
    have : (stepCoef w p y inp c).kappa (w.ix.I_1k k) * new.u k
        = (-(stepCoef w p y inp c).mu (w.ix.I_1k k) * (stepBwd w p y inp wk c).X (w.ix.I_1k k)
            - (stepCoef w p y inp c).lam (w.ix.I_1k k)) * raw1 w p y inp wk c x k
          + ((stepCoef w p y inp c).eta (w.ix.I_1k k) - (stepCoef w p y inp c).mu (w.ix.I_1k k)
            * (stepBwd w p y inp wk c).Y (w.ix.I_1k k))
          + (-(stepCoef w p y inp c).mu (w.ix.I_1k k) * (stepBwd w p y inp wk c).Z (w.ix.I_1k k))
            * rawNp1 w p y inp wk c x k := by
      rw [e3']; field_simp
    simp only [QCoef.slice, Nat.add_zero]
    simp only [Nat.add_zero] at b h1
    rw [b, h1]
    linear_combination this
  · have hmu := Pv.mu
    have e4' : new.d k = (stepEndRec w p y inp wk c k).U * rawNp1 w p y inp wk c x k
        + (stepEndRec w p y inp wk c k).V + (stepEndRec w p y inp wk c k).W * raw1 w p y inp wk c x k := by
      rw [hd]; exact e4
    simp only [stepEndRec, endRec, hIN1] at e4'
    rw [hIN] at e4'
    simp only [safeDivide_of_ne _ hmu] at e4'
    have : (stepCoef w p y inp c).mu (w.ix.I_1k k + w.ix.nk k) * new.d k
        = (-(stepCoef w p y inp c).kappa (w.ix.I_1k k + w.ix.nk k)
            * (stepFwd w p y inp wk c).U (w.ix.I_1k k + (w.ix.nk k - 1))
            - (stepCoef w p y inp c).lam (w.ix.I_1k k + w.ix.nk k)) * rawNp1 w p y inp wk c x k
          + ((stepCoef w p y inp c).eta (w.ix.I_1k k + w.ix.nk k)
            - (stepCoef w p y inp c).kappa (w.ix.I_1k k + w.ix.nk k)
            * (stepFwd w p y inp wk c).V (w.ix.I_1k k + (w.ix.nk k - 1)))
          + (-(stepCoef w p y inp c).kappa (w.ix.I_1k k + w.ix.nk k)
            * (stepFwd w p y inp wk c).W (w.ix.I_1k k + (w.ix.nk k - 1))) * raw1 w p y inp wk c x k := by
      rw [e4']; field_simp
    simp only [QCoef.slice]
    rw [f, hN]
    linear_combination this
  · simp only [h1, hju, hu]; exact e1
  · simp only [hN, hjd, hd]; exact e2

/-- No limit is active while computing superlink `k` from the solver result `x`. -/
structure Unlimited (w : Wiring) (p : Params K) (lo : K) (hi : Option K) (y : Hydro K) (inp : Inputs K)
    (wk : Work K) (c : Conc K) (x : ℕ → K) (k : ℕ) : Prop where
  ju : limit lo hi (x (w.Ju k)) = x (w.Ju k)
  jd : limit lo hi (x (w.Jd k)) = x (w.Jd k)
  u : limit lo hi (rawU w p y inp wk c x k) = rawU w p y inp wk c x k
  d : limit lo hi (rawD w p y inp wk c x k) = rawD w p y inp wk c x k
  c1 : limit lo hi (raw1 w p y inp wk c x k) = raw1 w p y inp wk c x k
  cN : limit lo hi (rawNp1 w p y inp wk c x k) = rawNp1 w p y inp wk c x k
  links : ∀ j, 1 ≤ j → j < w.ix.nk k →
    (advance w p lo hi y inp wk c x).i (w.ix.i_1k k + j)
      = c_i_f ((advance w p lo hi y inp wk c x).I (w.ix.I_1k k + (j + 1))) (raw1 w p y inp wk c x k)
        ((stepFwd w p y inp wk c).U (w.ix.I_1k k + j)) ((stepFwd w p y inp wk c).V (w.ix.I_1k k + j))
        ((stepFwd w p y inp wk c).W (w.ix.I_1k k + j))
  nodes : ∀ j, 1 ≤ j → j < w.ix.nk k →
    (advance w p lo hi y inp wk c x).I (w.ix.I_1k k + j)
      = c_I_b ((advance w p lo hi y inp wk c x).i (w.ix.i_1k k + j)) (rawNp1 w p y inp wk c x k)
        ((stepBwd w p y inp wk c).X (w.ix.I_1k k + j)) ((stepBwd w p y inp wk c).Y (w.ix.I_1k k + j))
        ((stepBwd w p y inp wk c).Z (w.ix.I_1k k + j))
  first : (advance w p lo hi y inp wk c x).i (w.ix.i_1k k + 0)
      = c_i_b (raw1 w p y inp wk c x k) (rawNp1 w p y inp wk c x k)
        ((stepBwd w p y inp wk c).X (w.ix.I_1k k)) ((stepBwd w p y inp wk c).Y (w.ix.I_1k k))
        ((stepBwd w p y inp wk c).Z (w.ix.I_1k k))

/-- The raw end values depend on the two superjunction concentrations only. -/
theorem raw_congr {x x' : ℕ → K} {k : ℕ} (hu : x (w.Ju k) = x' (w.Ju k)) (hd : x (w.Jd k) = x' (w.Jd k)) :
    rawU w p y inp wk c x k = rawU w p y inp wk c x' k ∧ rawD w p y inp wk c x k = rawD w p y inp wk c x' k ∧
    raw1 w p y inp wk c x k = raw1 w p y inp wk c x' k ∧
    rawNp1 w p y inp wk c x k = rawNp1 w p y inp wk c x' k := by
  have e1 : rawU w p y inp wk c x k = rawU w p y inp wk c x' k := by simp only [rawU, hu, hd]
  have e2 : rawD w p y inp wk c x k = rawD w p y inp wk c x' k := by simp only [rawD, hu, hd]
  exact ⟨e1, e2, by simp only [raw1, e1, hu], by simp only [rawNp1, e2, hd]⟩

theorem limit_idem (lo : K) (hi : Option K) (h : ∀ m, hi = some m → lo ≤ m) (x : K) :
    limit lo hi (limit lo hi x) = limit lo hi x :=
  limit_eq (inLimits_limit h x).1 (inLimits_limit h x).2

/-- **C54.** With non-zero pivots and no active limit, the concentrations computed for a superlink satisfy
every transport equation of the superlink: its links, its junctions (ends included) and its two end
stretches. -/
theorem C54_transport_equations (W : Wired w) {lo : K} {hi : Option K} (hlim : ∀ m, hi = some m → lo ≤ m)
    {x : ℕ → K} {k : ℕ} (hk : k < w.ix.NK) (Pv : Pivots w p y inp wk c k)
    (U : Unlimited w p lo hi y inp wk c x k) :
    LinkTransport w p y inp c (advance w p lo hi y inp wk c x) k := by
  have hn := W.layout.pos k hk
  obtain ⟨rU, rD, r1, rN⟩ := raw_congr (p := p) (y := y) (inp := inp) (wk := wk) (c := c)
    (x := fun j => limit lo hi (x j)) (x' := x) U.ju U.jd
  have spec := numbaSolveInternals_spec (stepFwd w p y inp wk c) (stepBwd w p y inp wk c) lo hi
    (fun k => limit lo hi (raw1 w p y inp wk c (fun j => limit lo hi (x j)) k))
    (fun k => limit lo hi (rawNp1 w p y inp wk c (fun j => limit lo hi (x j)) k))
    w.ix.i_1k w.ix.I_1k w.ix.nk w.ix.NK true ⟨c.I, c.i⟩ W.layout k hk
  have first := spec.first
  have last := spec.last
  have aI : ∀ j, (advance w p lo hi y inp wk c x).I j = limit lo hi ((numbaSolveInternals
    (stepFwd w p y inp wk c) (stepBwd w p y inp wk c) lo hi
    (fun k => limit lo hi (raw1 w p y inp wk c (fun j => limit lo hi (x j)) k))
    (fun k => limit lo hi (rawNp1 w p y inp wk c (fun j => limit lo hi (x j)) k))
    w.ix.i_1k w.ix.I_1k w.ix.nk w.ix.NK true ⟨c.I, c.i⟩).I j) := fun _ => rfl
  have h1 : (advance w p lo hi y inp wk c x).I (w.ix.I_1k k + 0) = raw1 w p y inp wk c x k := by
    rw [aI, first, limit_idem _ _ hlim, r1, U.c1]
  have hN : (advance w p lo hi y inp wk c x).I (w.ix.I_1k k + w.ix.nk k) = rawNp1 w p y inp wk c x k := by
    rw [aI, last, limit_idem _ _ hlim, rN, U.cN]
  refine linkTransport_of_interior W hk Pv (x := x) U.ju U.jd ?_ ?_ h1 hN ?_
  · show limit lo hi (rawU w p y inp wk c (fun j => limit lo hi (x j)) k) = _
    rw [rU, U.u]
  · show limit lo hi (rawD w p y inp wk c (fun j => limit lo hi (x j)) k) = _
    rw [rD, U.d]
  · have lk : ∀ j, 1 ≤ j → j < w.ix.nk k → _ := U.links
    refine internals_unlimited (lo := lo) (hi := hi) (back := true) hn (stepFwd_rel (wk := wk) W hk)
      (stepBwd_rel (wk := wk) W hk) Pv.fwd Pv.bwd Pv.X
      (c1 := raw1 w p y inp wk c x k) (cN := rawNp1 w p y inp wk c x k) ?_ U.links ?_
    · refine ⟨⟨h1, hN, fun j _ h1' hj => ?_, fun j _ h1' hj => ?_⟩, ?_⟩
      · have := U.links j h1' hj
        rw [← this]
        exact (limit_idem _ _ hlim _).symm
      · have := U.nodes j h1' hj
        rw [← U.links j h1' hj, ← this]
        exact (limit_idem _ _ hlim _).symm
      · simp only [if_true]
        exact U.first
    · intro j h1' hj
      rw [← U.links j h1' hj]
      exact U.nodes j h1' hj

end

/-! ### C57, C58: conservation -/

section
variable [IsStrictOrderedRing K]

/-- **C57, what the code does.** In a control volume without reaction the stored contaminant changes by
what flowed in minus what flowed out plus sources, *minus* `(V - V_prev)(c - c_prev)`. -/
theorem C57_mass_defect {dt V V_prev c_prev c net src : K} :
    CellEq dt V V_prev 0 c_prev c net src ↔
      (V * c - V_prev * c_prev) / dt = src - net - (V - V_prev) * (c - c_prev) / dt := by
  unfold CellEq
  constructor
  · intro h; linear_combination h
  · intro h; linear_combination h

/-- **C57, negation in general.** Contaminant mass is conserved by a control volume of the step exactly
when its volume or its concentration did not change. -/
theorem C57_conserved_iff {dt V V_prev c_prev c net src : K} (hdt : dt ≠ 0)
    (h : CellEq dt V V_prev 0 c_prev c net src) :
    V * c - V_prev * c_prev = dt * (src - net) ↔ V = V_prev ∨ c = c_prev := by
  rw [C57_mass_defect] at h
  have h' : V * c - V_prev * c_prev = dt * (src - net) - (V - V_prev) * (c - c_prev) := by
    have : dt * ((V * c - V_prev * c_prev) / dt) = dt * (src - net - (V - V_prev) * (c - c_prev) / dt) := by rw [h]
    field_simp at this
    linear_combination this
  constructor
  · intro e
    have : (V - V_prev) * (c - c_prev) = 0 := by linarith
    rcases mul_eq_zero.mp this with h1 | h1
    · exact Or.inl (sub_eq_zero.mp h1)
    · exact Or.inr (sub_eq_zero.mp h1)
  · rintro (e | e)
    · rw [h', e]; ring
    · rw [h', e]; ring

/-- **C57, negation.** A link of length 1 that fills from area 1 to area 2 in one second with inflow 1 of
clean water, and held concentration 3: the step leaves 4 units of contaminant where there were 3. -/
theorem C57_witness : ∃ (dt V V_prev c_prev c net src : ℚ), 0 < dt ∧ 0 < V ∧ 0 < V_prev ∧
    CellEq dt V V_prev 0 c_prev c net src ∧ net = 0 ∧ src = 0 ∧ V * c ≠ V_prev * c_prev := by
  refine ⟨1, 2, 1, 3, 2, 0, 0, by norm_num, by norm_num, by norm_num, ?_, rfl, rfl, by norm_num⟩
  unfold CellEq; norm_num

/-- **C57 (partial).** With unchanged volumes the step conserves contaminant in every control volume;
missing: changing volumes, where the code is off by `(V - V_prev)(c - c_prev)`. -/
theorem C57_conserved_partial {dt V c_prev c net src : K} (hdt : dt ≠ 0)
    (h : CellEq dt V V 0 c_prev c net src) : V * c - V * c_prev = dt * (src - net) :=
  (C57_conserved_iff hdt h).mpr (Or.inl rfl)

/-- Each control moves its flow at the concentration of the side the water comes from. -/
theorem ctrl_flux (Q a b : K) : flux Q 0 a b = if 0 < Q then Q * a else Q * b := by
  unfold flux upwind; split_ifs <;> ring

/-- **C58.** The control blocks of the assembled matrices give, in the equation of every free
superjunction, the net contaminant leaving through the controls, each carrying the concentration of its
source; and over all superjunctions what leaves equals what enters. -/
theorem C58_controls_conserve (bc : ℕ → Bool) (M n : ℕ) (Ju Jd : ℕ → ℕ) (Q x : ℕ → K) (X : ℕ → ℕ → K)
    (hX : Clean bc Ju Jd n X) (hu : ∀ k, k < n → Ju k < M) (hd : ∀ k, k < n → Jd k < M) :
    (∀ i, i < M → bc i = false →
      ∑ j ∈ Finset.range M, ctrlBlock bc M (ctrls n Ju Jd Q) X i j * x j
        = ∑ m ∈ Finset.range n, ((if Ju m = i then (if 0 < Q m then Q m * x (Ju m) else Q m * x (Jd m)) else 0)
          - (if Jd m = i then (if 0 < Q m then Q m * x (Ju m) else Q m * x (Jd m)) else 0))) ∧
    (∀ i, i < M → bc i = true → ∑ j ∈ Finset.range M, ctrlBlock bc M (ctrls n Ju Jd Q) X i j * x j = 0) ∧
    ∑ i ∈ Finset.range M, ctrlNet n Ju Jd Q x i = 0 := by
  refine ⟨fun i hi hb => ?_, fun i hi hb => ?_, ?_⟩
  · rw [Finset.sum_congr rfl (fun j _ => by
      rw [ctrlBlock_eq bc M (ctrls n Ju Jd Q) X hX i j (Or.inl hi)])]
    rw [ctrls_row bc M n Ju Jd Q x hu hd i hi hb]
    unfold ctrlNet
    simp only [ctrl_flux]
  · apply Finset.sum_eq_zero
    intro j _
    rw [ctrlBlock_eq bc M (ctrls n Ju Jd Q) X hX i j (Or.inl hi)]
    simp [specC, blockSpec, hb]
  · unfold ctrlNet
    rw [Finset.sum_comm]
    apply Finset.sum_eq_zero
    intro k hk
    have hk := Finset.mem_range.mp hk
    rw [Finset.sum_sub_distrib, Finset.sum_ite_eq, Finset.sum_ite_eq, if_pos (Finset.mem_range.mpr (hu k hk)),
      if_pos (Finset.mem_range.mpr (hd k hk)), sub_self]

end

end Pipedream.Quality
