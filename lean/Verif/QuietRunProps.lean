import Verif.StepControlProps
import Verif.LoopProps

/-!
# C201: a steady flow is followed in the longest allowed steps

When a step changes nothing (a steady flow, C100; water at rest, C14), the step with and without subdivisions agree, the
error estimate is the smallest one there is (`eps`), no step is rejected, and the step sizes chosen by the filter reach
`max_dt` after finitely many steps and stay there. The only heads for which that fails are those of exactly -1 mm, where the
scaled error is 0/0.
-/

namespace Pipedream.Driver

open _root_.Filter Topology Pipedream.Link Pipedream.Step

noncomputable section

/-! ### The filter under a constant error -/

/-- Filters whose step is a weighted mean of the last three steps, times a factor: all documented ones but `h0321`, `h321`. -/
structure Coeffs.Mean (q : Coeffs) : Prop where
  beta : 0 < q.beta
  a3 : 0 ≤ q.a3
  a2 : q.a3 ≤ q.a2
  le : q.a2 ≤ 1

theorem mean_documented : h0100.Mean ∧ h0211.Mean ∧ h211.Mean ∧ h0312.Mean ∧ h312.Mean := by
  refine ⟨?_, ?_, ?_, ?_, ?_⟩ <;> constructor <;> norm_num [Coeffs.beta, h0100, h0211, h211, h0312, h312]

/-- The factor by which the smallest of the last three steps grows. -/
def growth (f : Filter) (e : ℝ) : ℝ := f.safety * min ((f.tol / e) ^ (f.q.beta / f.k)) f.maxRel

variable {f : Filter} {e : ℝ}

/-- **C201, growth.** Three errors `e`: the next step is at least the smallest of the last three times the growth factor, or
the largest step allowed. -/
theorem C201_growth (hq : f.q.Mean) (ht : 0 < f.tol) (he : 0 < e) (hs : 0 < f.safety) (hr : 0 < f.maxRel)
    {a b d L r : ℝ} (hL : 0 < L) (ha : L ≤ a) (hb : L ≤ b) (hd : L ≤ d)
    (h : filterStepSize f.tol [a, b, d] [.val e, .val e, .val e] f.q f.minDt f.maxDt f.minRel f.maxRel f.safety f.k = .ok r) :
    min (growth f e * L) f.maxDt ≤ r := by
  have pa : 0 < a := hL.trans_le ha
  have pb : 0 < b := hL.trans_le hb
  have pd : 0 < d := hL.trans_le hd
  have pt : 0 < f.tol / e := div_pos ht he
  simp only [filterStepSize, Except.ok.injEq] at h
  rw [← Real.rpow_add pt, ← Real.rpow_add pt] at h
  have hβ : f.q.b1 / f.k + f.q.b2 / f.k + f.q.b3 / f.k = f.q.beta / f.k := by unfold Coeffs.beta; ring
  rw [hβ] at h
  set G := (f.tol / e) ^ (f.q.beta / f.k) with hG
  have G0 : 0 < G := Real.rpow_pos_of_pos pt _
  -- the mean of the three steps
  have mean : L ≤ (a / b) ^ (-f.q.a2) * (b / d) ^ (-f.q.a3) * a := by
    have e1 : (a / b) ^ (-f.q.a2) * (b / d) ^ (-f.q.a3) * a = Real.exp ((1 - f.q.a2) * Real.log a
        + (f.q.a2 - f.q.a3) * Real.log b + f.q.a3 * Real.log d) := by
      rw [Real.rpow_def_of_pos (div_pos pa pb), Real.rpow_def_of_pos (div_pos pb pd)]
      have ea : Real.exp (Real.log (a / b) * -f.q.a2) * Real.exp (Real.log (b / d) * -f.q.a3) * a =
          Real.exp (Real.log (a / b) * -f.q.a2) * Real.exp (Real.log (b / d) * -f.q.a3) * Real.exp (Real.log a) := by
        rw [Real.exp_log pa]
      rw [ea, ← Real.exp_add, ← Real.exp_add, Real.log_div pa.ne' pb.ne', Real.log_div pb.ne' pd.ne']
      congr 1; ring
    rw [e1, ← Real.log_le_iff_le_exp hL]
    have la := Real.log_le_log hL ha
    have lb := Real.log_le_log hL hb
    have ld := Real.log_le_log hL hd
    have h1 := mul_le_mul_of_nonneg_left la (by linarith [hq.le] : 0 ≤ 1 - f.q.a2)
    have h2 := mul_le_mul_of_nonneg_left lb (by linarith [hq.a2] : 0 ≤ f.q.a2 - f.q.a3)
    have h3 := mul_le_mul_of_nonneg_left ld hq.a3
    linarith
  set R := (a / b) ^ (-f.q.a2) * (b / d) ^ (-f.q.a3) with hR
  have R0 : 0 < R := mul_pos (Real.rpow_pos_of_pos (div_pos pa pb) _) (Real.rpow_pos_of_pos (div_pos pb pd) _)
  have key : growth f e * L ≤ f.safety * min (max (G * (a / b) ^ (-f.q.a2) * (b / d) ^ (-f.q.a3)) f.minRel) f.maxRel * a := by
    have k1 : min G f.maxRel * L ≤ min (max (G * (a / b) ^ (-f.q.a2) * (b / d) ^ (-f.q.a3)) f.minRel) f.maxRel * a := by
      rcases min_choice (max (G * (a / b) ^ (-f.q.a2) * (b / d) ^ (-f.q.a3)) f.minRel) f.maxRel with c | c
      · rw [c]
        calc min G f.maxRel * L ≤ G * (R * a) := mul_le_mul (min_le_left _ _) mean hL.le G0.le
          _ = G * (a / b) ^ (-f.q.a2) * (b / d) ^ (-f.q.a3) * a := by rw [hR]; ring
          _ ≤ _ := mul_le_mul_of_nonneg_right (le_max_left _ _) pa.le
      · rw [c]
        exact mul_le_mul (min_le_right _ _) ha hL.le hr.le
    unfold growth
    rw [mul_assoc, mul_assoc]
    exact mul_le_mul_of_nonneg_left k1 hs.le
  rw [← h]
  exact min_le_min_right _ (key.trans (le_max_left _ _))

/-- **C201, the longest step is reached.** Under a constant error `e` with growth factor above one (for instance
`e < tol` and a safety factor of one) the filter's steps are `max_dt` from some step on. -/
theorem C201_reaches (hq : f.q.Mean) (ht : 0 < f.tol) (he : 0 < e) (hs : 0 < f.safety) (hr : 0 < f.maxRel)
    (hm : 0 < f.maxDt) (hg : 1 < growth f e) {dt : ℕ → ℝ} (pos : ∀ n, 0 < dt n)
    (next : ∀ n, filterStepSize f.tol [dt (n + 2), dt (n + 1), dt n] [.val e, .val e, .val e] f.q f.minDt f.maxDt f.minRel
      f.maxRel f.safety f.k = .ok (dt (n + 3))) : ∃ N, ∀ n, N ≤ n → dt n = f.maxDt := by
  have up : ∀ n, dt (n + 3) ≤ f.maxDt := fun n => by
    have h := next n
    simp only [filterStepSize, Except.ok.injEq] at h
    rw [← h]; exact min_le_right _ _
  set m := min (min (dt 0) (dt 1)) (dt 2) with hmin
  have m0 : 0 < m := lt_min (lt_min (pos 0) (pos 1)) (pos 2)
  set G := growth f e
  have grow : ∀ {L : ℝ} (n : ℕ), 0 < L → L ≤ dt (n + 2) → L ≤ dt (n + 1) → L ≤ dt n → min (G * L) f.maxDt ≤ dt (n + 3) :=
    fun n hL h1 h2 h3 => C201_growth hq ht he hs hr hL h1 h2 h3 (next n)
  have low : ∀ j n, 3 * j ≤ n → min (G ^ j * m) f.maxDt ≤ dt n := by
    intro j
    induction j with
    | zero =>
      intro n _
      rw [pow_zero, one_mul]
      have L0 : 0 < min m f.maxDt := lt_min m0 hm
      induction n using Nat.strong_induction_on with
      | _ n ih =>
        match n, ih with
        | 0, _ => exact (min_le_left _ _).trans ((min_le_left _ _).trans (min_le_left _ _))
        | 1, _ => exact (min_le_left _ _).trans ((min_le_left _ _).trans (min_le_right _ _))
        | 2, _ => exact (min_le_left _ _).trans (min_le_right _ _)
        | n + 3, ih =>
          refine le_trans (le_min ?_ (min_le_right _ _)) (grow n L0 (ih _ (by omega) (by omega)) (ih _ (by omega) (by omega))
            (ih _ (by omega) (by omega)))
          exact le_mul_of_one_le_left L0.le hg.le
    | succ j ih =>
      intro n hn
      obtain ⟨n, rfl⟩ : ∃ k, n = k + 3 := ⟨n - 3, by omega⟩
      have L0 : 0 < min (G ^ j * m) f.maxDt := lt_min (mul_pos (pow_pos (by linarith) _) m0) hm
      refine le_trans (le_min ?_ (min_le_right _ _)) (grow n L0 (ih _ (by omega)) (ih _ (by omega)) (ih _ (by omega)))
      rcases min_choice (G ^ j * m) f.maxDt with c | c
      · rw [c, pow_succ]; exact (min_le_left _ _).trans (le_of_eq (by ring))
      · rw [c]; exact (min_le_right _ _).trans (le_mul_of_one_le_left hm.le hg.le)
  obtain ⟨j, hj⟩ := pow_unbounded_of_one_lt (f.maxDt / m) hg
  refine ⟨3 * j + 3, fun n hn => ?_⟩
  obtain ⟨n, rfl⟩ : ∃ k, n = k + 3 := ⟨n - 3, by omega⟩
  refine le_antisymm (up n) ?_
  have := low j (n + 3) (by omega)
  rwa [min_eq_right (by rw [div_lt_iff₀ m0] at hj; exact hj.le)] at this

/-! ### Hydraulics in which a step changes nothing -/

variable {X W I : Type} {hy : Hydraulics X W I} {c : Cfg I} {Gx : X → Prop} {Gw : W → Prop} {h0 : ℕ → ℝ} {D : ℝ}

/-- From the states `Gx` (all with the heads `h0`) every pass, of any size up to `D`, leads to such a state. -/
structure Resting (hy : Hydraulics X W I) (c : Cfg I) (Gx : X → Prop) (Gw : W → Prop) (h0 : ℕ → ℝ) (D : ℝ) :
    Prop where
  pass : ∀ sv cur w dt t, Gx sv → Gx cur → Gw w → 0 < dt → dt ≤ D →
    ∃ x w', hy.pass sv cur w dt (c.forcing t) = .ok (x, w') ∧ Gx x ∧ Gw w'
  reload : ∀ x w, Gw w → Gw (hy.reload x w)
  heads : ∀ x, Gx x → ∀ j, j < hy.M → hy.heads x j = some (h0 j)

theorem rest_onePass (R : Resting hy c Gx Gw h0 D) {dflt dt : ℝ} (hd : 0 < dt) (hD : dt ≤ D) (first : Bool) (t : ℝ) {m : Mdl X W}
    (g : Gx m.x ∧ Gw m.w) (sv : first = false → Gx m.saved.2) :
    ∃ m', onePass hy dflt (some dt) first (c.forcing t) m = .ok m' ∧ (Gx m'.x ∧ Gw m'.w) ∧ Gx m'.saved.2 ∧ m'.t = m.t + dt ∧
      m'.saved = if first then (m.t, m.x) else m.saved := by
  unfold onePass
  cases first
  · obtain ⟨x, w, e, gx, gw⟩ := R.pass m.saved.2 m.x m.w dt t (sv rfl) g.1 g.2 hd hD
    simp only [Bool.false_eq_true, if_false, Option.getD_some, e]
    exact ⟨_, rfl, ⟨gx, gw⟩, sv rfl, rfl, rfl⟩
  · obtain ⟨x, w, e, gx, gw⟩ := R.pass m.x m.x m.w dt t g.1 g.1 g.2 hd hD
    simp only [if_true, saveState, Option.getD_some, e]
    exact ⟨_, rfl, ⟨gx, gw⟩, g.1, rfl, rfl⟩

theorem rest_modelStep (R : Resting hy c Gx Gw h0 D) (htol : 0 < c.headTol) {dt : ℝ} (hd : 0 < dt) (hD : dt ≤ D) {m : Mdl X W}
    (g : Gx m.x ∧ Gw m.w) :
    ∃ m', modelStep hy c dt m = .ok m' ∧ (Gx m'.x ∧ Gw m'.w) ∧ Gx m'.saved.2 ∧ m'.t = m.t + dt ∧ m'.saved = (m.t, m.x) := by
  unfold modelStep superStep
  obtain ⟨m1, e1, g1, s1, t1, sv⟩ := rest_onePass (dflt := c.dflt) R hd hD true (m.t + dt) g (fun h => by cases h)
  simp only [e1]
  have cl : Close hy c.headTol m1.x m1.saved.2 := fun j hj =>
    ⟨h0 j, h0 j, R.heads _ g1.1 j hj, R.heads _ s1 j hj, by rwa [sub_self, abs_zero]⟩
  rw [if_pos cl]
  split_ifs <;> exact ⟨_, rfl, g1, s1, t1, sv⟩

theorem rest_substeps (R : Resting hy c Gx Gw h0 D) (htol : 0 < c.headTol) {dt : ℝ} (hd : 0 < dt) (hD : dt ≤ D) (n : ℕ) {m : Mdl X W}
    (g : Gx m.x ∧ Gw m.w) :
    ∃ m', substeps hy c dt n m = .ok m' ∧ (Gx m'.x ∧ Gw m'.w) ∧ (Gx m.saved.2 → Gx m'.saved.2) ∧ m'.t = m.t + n * dt := by
  induction n generalizing m with
  | zero => exact ⟨_, rfl, g, id, by simp⟩
  | succ n ih =>
    obtain ⟨m1, e1, g1, s1, t1, -⟩ := rest_modelStep R htol hd hD g
    obtain ⟨m2, e2, g2, s2, t2⟩ := ih g1
    simp only [substeps, e1]
    exact ⟨m2, e2, g2, fun _ => s2 s1, by rw [t2, t1]; push_cast; ring⟩

/-- The error of no difference is `eps` in every norm. -/
theorem normed_zero {norm : ℤ} (hn : Known norm) {n : ℕ} {v : ℕ → Option ℝ} (hv : ∀ j, j < n → v j = some 0) :
    normedErr norm n v = .ok (.val eps) := by
  have ep : 0 < eps := by unfold eps; positivity
  have u : ∀ j ∈ Finset.range n, (v j).getD 0 = 0 := fun j hj => by rw [hv j (Finset.mem_range.1 hj)]; rfl
  have all : ∀ j, j < n → (v j).isSome := fun j hj => by rw [hv j hj]; rfl
  have s0 : ∑ j ∈ Finset.range n, (if (v j).getD 0 > 0 then (1 : ℝ) else 0) = 0 :=
    Finset.sum_eq_zero fun j hj => by rw [u j hj]; simp
  have s1 : ∑ j ∈ Finset.range n, (v j).getD 0 = 0 := Finset.sum_eq_zero u
  have s2 : ∑ j ∈ Finset.range n, (v j).getD 0 ^ 2 = 0 := Finset.sum_eq_zero fun j hj => by rw [u j hj]; norm_num
  have s3 : maxAbs (fun j => (v j).getD 0) n = 0 := by
    have : ∀ k, k ≤ n → maxAbs (fun j => (v j).getD 0) k = 0 := by
      intro k
      induction k with
      | zero => intro _; rfl
      | succ k ih => intro h; simp only [maxAbs]; rw [ih (by omega), u k (Finset.mem_range.2 (by omega))]; simp
    exact this n le_rfl
  have fin : max |(0 : ℝ)| eps = eps := by rw [abs_zero, max_eq_right ep.le]
  unfold normedErr
  rcases hn with rfl | rfl | rfl | rfl
  · simp only [if_true, s0, zero_div, fin]
  · simp only [one_ne_zero, if_false, if_true, s1, zero_div, fin, if_pos all]
  · rw [if_neg (by norm_num), if_neg (by norm_num), if_pos rfl, if_pos all]
    simp only [s2, zero_div, Real.sqrt_zero, fin]
  · rw [if_neg (by norm_num), if_neg (by norm_num), if_neg (by norm_num), if_pos rfl, if_pos all]
    simp only [s3, fin]

/-- **C201, accepted.** In a steady flow a step with error control (two or more subdivisions, any number of retries, any known
norm, a tolerance of at least `eps`) is accepted at the first attempt with the error `eps` and reaches the time it was
asked for. -/
theorem C201_accepted (R : Resting hy c Gx Gw h0 D) (htol : 0 < c.headTol) (hh : ∀ j, j < hy.M → h0 j ≠ -1e-3) {sub : ℕ}
    (hsub : 2 ≤ sub) (retries : ℕ) {tol : ℝ} (ht : eps ≤ tol) {norm : ℤ} (hn : Known norm) {dt : ℝ} (hd : 0 < dt)
    (hD : dt ≤ D) {s : Sim X W} (g : Gx s.m.x ∧ Gw s.m.w) :
    ∃ s', simStep hy c sub retries tol norm dt s = .ok s' ∧ (Gx s'.m.x ∧ Gw s'.m.w) ∧ s'.m.t = s.m.t + dt ∧
      s'.dts = push dt s.dts ∧ s'.errs = push (.val eps) s.errs ∧ s'.dt = dt := by
  have sp : (0 : ℝ) < sub := by exact_mod_cast (by omega : 0 < sub)
  obtain ⟨m1, e1, g1, s1, t1, v1⟩ := rest_modelStep R htol hd hD g
  obtain ⟨m2, e2, g2, s2, t2⟩ := rest_substeps R htol (div_pos hd sp)
    ((div_le_self hd.le (by exact_mod_cast (by omega : 1 ≤ sub))).trans hD) sub (m := loadState hy m1.saved m1)
    ⟨s1, R.reload _ _ g1.2⟩
  have sv2 : Gx m2.saved.2 := s2 s1
  have er : normedErr norm hy.M (scaledErr hy m1.x m2.x m2.saved.2) = .ok (.val eps) := by
    refine normed_zero hn fun j hj => ?_
    unfold scaledErr
    rw [R.heads _ g1.1 j hj, R.heads _ g2.1 j hj, R.heads _ sv2 j hj]
    simp only [max_self, sub_self, zero_div]
    rw [if_neg]
    intro h
    apply hh j hj
    norm_num at h ⊢
    linarith
  have at' : attempt hy c sub norm dt s.m = .ok (m2, .val eps, m1.saved) := by
    unfold attempt
    simp only [e1, if_pos (show sub > 1 by omega), e2, er]
  have tt : m2.t = s.m.t + dt := by
    rw [t2, show (loadState hy m1.saved m1).t = m1.saved.1 from rfl, v1, mul_div_cancel₀ _ sp.ne']
  have fin : ∀ s : Sim X W, Gx s.m.x → finish hy s = .ok { s with iter := s.iter + 1 } := fun s gx => by
    unfold finish
    rw [if_pos]
    exact fun j hj => by rw [R.heads _ gx j hj]; rfl
  cases retries with
  | zero =>
    simp only [simStep, at']
    rw [fin _ (by exact g2.1)]
    exact ⟨_, rfl, g2, tt, rfl, rfl, rfl⟩
  | succ r =>
    simp only [simStep, at']
    rw [if_neg (by rintro ⟨h, -⟩; exact absurd h (not_lt.2 ht)), fin _ (by exact g2.1)]
    exact ⟨_, rfl, g2, tt, rfl, rfl, rfl⟩

/-- **C201, the exception.** If a superjunction's steady head is -1 mm exactly, the error of every attempt is `nan` (0/0) in every
norm but 0, and it is rejected whatever the tolerance: the step is halved until the retries or `min_dt` end it. -/
theorem C201_minus_one_mm (R : Resting hy c Gx Gw h0 D) (htol : 0 < c.headTol) {j : ℕ} (hj : j < hy.M) (hh : h0 j = -1e-3)
    {sub : ℕ} (hsub : 2 ≤ sub) {norm : ℤ} (hn : Known norm) (hn0 : norm ≠ 0) {dt : ℝ} (hd : 0 < dt) (hD : dt ≤ D)
    {m : Mdl X W} (g : Gx m.x ∧ Gw m.w) :
    ∃ m' sv, attempt hy c sub norm dt m = .ok (m', .nan, sv) ∧ ∀ tol, Est.rejected tol .nan := by
  have sp : (0 : ℝ) < sub := by exact_mod_cast (by omega : 0 < sub)
  obtain ⟨m1, e1, g1, s1, t1, v1⟩ := rest_modelStep R htol hd hD g
  obtain ⟨m2, e2, g2, s2, t2⟩ := rest_substeps R htol (div_pos hd sp)
    ((div_le_self hd.le (by exact_mod_cast (by omega : 1 ≤ sub))).trans hD) sub (m := loadState hy m1.saved m1)
    ⟨s1, R.reload _ _ g1.2⟩
  have sv2 : Gx m2.saved.2 := s2 s1
  have no : ¬ ∀ i, i < hy.M → (scaledErr hy m1.x m2.x m2.saved.2 i).isSome := fun h => by
    have := h j hj
    unfold scaledErr at this
    rw [R.heads _ g1.1 j hj, R.heads _ g2.1 j hj, R.heads _ sv2 j hj] at this
    simp only [max_self, sub_self, zero_div] at this
    rw [if_pos (by rw [hh]; norm_num)] at this
    cases this
  have er : normedErr norm hy.M (scaledErr hy m1.x m2.x m2.saved.2) = .ok .nan := by
    unfold normedErr
    rcases hn with rfl | rfl | rfl | rfl
    · exact absurd rfl hn0
    · rw [if_neg (by norm_num), if_pos rfl, if_neg no]
    · rw [if_neg (by norm_num), if_neg (by norm_num), if_pos rfl, if_neg no]
    · rw [if_neg (by norm_num), if_neg (by norm_num), if_neg (by norm_num), if_pos rfl, if_neg no]
  refine ⟨m2, m1.saved, ?_, fun _ => trivial⟩
  unfold attempt
  simp only [e1, if_pos (show sub > 1 by omega), e2, er]

/-- What an adaptive run in a steady flow maintains: a steady state, a positive step size of at most `D`, and equally long histories in
which every error is `eps` (as the constructor leaves them, simulation.py 130–131). -/
structure Quiet (Gx : X → Prop) (Gw : W → Prop) (D : ℝ) (p : Sim X W × ℝ) : Prop where
  x : Gx p.1.m.x
  w : Gw p.1.m.w
  dt : 0 < p.2
  le : p.2 ≤ D
  len : p.1.dts.length = p.1.errs.length
  errs : ∀ e ∈ p.1.errs, e = .val eps

theorem quiet_body (R : Resting hy c Gx Gw h0 D) (htol : 0 < c.headTol) (hh : ∀ j, j < hy.M → h0 j ≠ -1e-3) {sub : ℕ}
    (hsub : 2 ≤ sub) (retries : ℕ) {norm : ℤ} (hn : Known norm) (hmin : 0 < f.minDt) (hmax : f.minDt ≤ f.maxDt) (hD : f.maxDt ≤ D)
    {p : Sim X W × ℝ} (i : Quiet Gx Gw D p) :
    ∃ p', adaptiveBody hy c f sub retries norm p = .ok p' ∧ Quiet Gx Gw D p' ∧ p'.1.dts = push p.2 p.1.dts ∧
      p'.1.errs = push (.val eps) p.1.errs ∧ p'.1.m.t = p.1.m.t + p.2 ∧
      filterStepSize f.tol p'.1.dts p'.1.errs f.q f.minDt f.maxDt f.minRel f.maxRel f.safety f.k = .ok p'.2 := by
  have e1 : eps ≤ 1 := by unfold eps; norm_num
  obtain ⟨s', h, g, t, d, e, -⟩ := C201_accepted R htol hh hsub retries e1 hn i.dt i.le ⟨i.x, i.w⟩
  have len : s'.dts.length = s'.errs.length := by
    rw [d, e]; simp only [push, List.length_take, List.length_cons, i.len]
  have all : ∀ x ∈ s'.errs, x = .val eps := by
    rw [e]
    intro x hx
    rcases List.mem_cons.1 (List.mem_of_mem_take hx) with rfl | h
    · rfl
    · exact i.errs x h
  obtain ⟨r, hr, r0, rD⟩ : ∃ r, filterStepSize f.tol s'.dts s'.errs f.q f.minDt f.maxDt f.minRel f.maxRel f.safety f.k = .ok r ∧
      0 < r ∧ r ≤ D := by
    have hd : s'.dts = p.2 :: p.1.dts.take 2 := by rw [d]; rfl
    rcases hl : p.1.dts with _ | ⟨a, _ | ⟨b, l⟩⟩
    · rw [hd, hl]; exact ⟨_, rfl, i.dt, i.le⟩
    · rw [hd, hl]; exact ⟨_, rfl, i.dt, i.le⟩
    · rw [hl] at hd
      rw [hd] at len
      match he : s'.errs, len with
      | [x, y, z], _ =>
        rw [he] at all
        rw [all x (by simp), all y (by simp), all z (by simp), hd]
        exact ⟨_, rfl, lt_min (lt_max_of_lt_right hmin) (hmin.trans_le hmax), (min_le_right _ _).trans hD⟩
  refine ⟨(s', r), ?_, ⟨g.1, g.2, r0, rD, len, all⟩, d, e, t, hr⟩
  simp only [adaptiveBody, h, hr]

/-- **C201, the run.** The documented adaptive loop in a steady flow: it goes on for ever, never leaves the steady flow, and from
some iteration on every step is `max_dt` long. -/
theorem C201_run (R : Resting hy c Gx Gw h0 D) (htol : 0 < c.headTol) (hh : ∀ j, j < hy.M → h0 j ≠ -1e-3) {sub : ℕ}
    (hsub : 2 ≤ sub) (retries : ℕ) {norm : ℤ} (hn : Known norm) (hmin : 0 < f.minDt) (hmax : f.minDt ≤ f.maxDt) (hD : f.maxDt ≤ D)
    (hq : f.q.Mean) (ht : 0 < f.tol) (hs : 0 < f.safety) (hr : 0 < f.maxRel) (hg : 1 < growth f eps)
    {s : Sim X W} {dt : ℝ} (i : Quiet Gx Gw D (s, dt)) :
    ∃ p : ℕ → Sim X W × ℝ, p 0 = (s, dt) ∧ (∀ n, adaptiveBody hy c f sub retries norm (p n) = .ok (p (n + 1))) ∧
      (∀ n, Gx (p n).1.m.x) ∧ ∃ N, ∀ n, N ≤ n → (p n).2 = f.maxDt ∧ (p (n + 1)).1.m.t = (p n).1.m.t + f.maxDt := by
  have ex : ∀ q : {q : Sim X W × ℝ // Quiet Gx Gw D q}, ∃ q' : {q : Sim X W × ℝ // Quiet Gx Gw D q},
      adaptiveBody hy c f sub retries norm q.1 = .ok q'.1 ∧ q'.1.1.dts = push q.1.2 q.1.1.dts ∧
      q'.1.1.errs = push (.val eps) q.1.1.errs ∧ q'.1.1.m.t = q.1.1.m.t + q.1.2 ∧
      filterStepSize f.tol q'.1.1.dts q'.1.1.errs f.q f.minDt f.maxDt f.minRel f.maxRel f.safety f.k = .ok q'.1.2 := fun q => by
    obtain ⟨p', h1, h2, h3⟩ := quiet_body R htol hh hsub retries hn hmin hmax hD q.2
    exact ⟨⟨p', h2⟩, h1, h3⟩
  choose nx h1 h2 h3 h4 h5 using ex
  let P : ℕ → {q : Sim X W × ℝ // Quiet Gx Gw D q} := fun n => Nat.rec ⟨(s, dt), i⟩ (fun _ q => nx q) n
  have ps : ∀ n, P (n + 1) = nx (P n) := fun _ => rfl
  have d3 : ∀ n, (P (n + 3)).1.1.dts = [(P (n + 2)).1.2, (P (n + 1)).1.2, (P n).1.2] := fun n => by
    rw [ps (n + 2), h2, ps (n + 1), h2, ps n, h2]
    simp [push]
  have e3 : ∀ n, (P (n + 3)).1.1.errs = [.val eps, .val eps, .val eps] := fun n => by
    rw [ps (n + 2), h3, ps (n + 1), h3, ps n, h3]
    simp [push]
  have nxt : ∀ n, filterStepSize f.tol [(P (n + 2)).1.2, (P (n + 1)).1.2, (P n).1.2] [.val eps, .val eps, .val eps] f.q f.minDt
      f.maxDt f.minRel f.maxRel f.safety f.k = .ok (P (n + 3)).1.2 := fun n => by
    rw [← d3 n, ← e3 n]
    exact h5 (P (n + 2))
  obtain ⟨N, hN⟩ := C201_reaches hq ht (by unfold eps; positivity) hs hr (hmin.trans_le hmax) hg
    (fun n => (P n).2.dt) nxt
  refine ⟨fun n => (P n).1, rfl, fun n => h1 (P n), fun n => (P n).2.x, N, fun n hn => ⟨hN n hn, ?_⟩⟩
  rw [← hN n hn]
  exact h4 (P n)

/-! ### The models -/

/-- The switches of the head coefficients are 0 or 1, as the constructor (1) and every pass leave them. -/
def Switches (w : Hidden) : Prop := ∀ k, (w.thu k = 0 ∨ w.thu k = 1) ∧ (w.thd k = 0 ∨ w.thd k = 1)

theorem switches_next (m : Model) (Ao : ℕ → ℝ) (s : Hyd) : Switches (m.nextHidden Ao s) := by
  intro k
  simp only [Model.nextHidden, upTo, Pipedream.Superlink.theta]
  constructor <;> split_ifs <;> simp

/-- **C201, steady flows.** A sound model at a state `s0` which is steady (the balances of C100 hold for the geometry computed
from any state that agrees with `s0`) under the forcing of every time: its passes, of any size up to `D`, change nothing. -/
theorem C201_steady {m : Model} {P : Plan} (sd : Sound m P) {c : Cfg Inputs} {s0 : Hyd} (st : StartTables m)
    (he : m.end_method = .b) (ins : Inside m s0)
    (gi : ∀ t dt, 0 < dt → GoodInputs m P { c.forcing t with dt := dt })
    (hst : ∀ t dt hid Ao cur, 0 < dt → dt ≤ D → Switches hid → SameState m s0 cur → (∀ I, m.min_depth ≤ cur.h I) →
      (∀ a, a < m.n_o → Geometry.orificeArea (hid.Ao a) (P.oShape a) (P.oGP a) (m.orificeDepth cur a) ((c.forcing t).u_o a) = .ok (Ao a)) →
      ProperControls m (m.geoOf P hid Ao cur) { c.forcing t with dt := dt } s0 ∧
      Steady m (m.geoOf P hid Ao cur) { c.forcing t with dt := dt } s0) :
    Resting (hydOf m P) c (fun s => SameState m s0 s ∧ ∀ I, m.min_depth ≤ s.h I)
      (fun w => CleanWork m w.1.mats ∧ Switches w.2) s0.H D := by
  refine ⟨fun sv cur w dt t gs gx gw hd hD => ?_, fun _ _ h => h, fun x hx j hj => congrArg some (hx.1.H j hj)⟩
  have go : GoodObj m ⟨sv, cur, w.1, w.2⟩ := ⟨gw.1, gx.2⟩
  have h := C105_step_succeeds sd (gi t dt hd) false go
  have g' := go.next sd.cons h.choose_spec
  obtain ⟨Ao, co, x, hA, p, e⟩ := h.choose_spec
  obtain ⟨pc, sy⟩ := hst t dt w.2 Ao cur hd hD gw.2 gx.1 gx.2 hA
  have ss := C100_steady_reproduced sd.cons st (physical_geoOf sd (gi t dt hd) w.2 Ao gx.2) gw.1 he (pc.congr sd.cons gx.1)
    (ins.congr gx.1) (gx.1.symm.trans gs.1) (sy.congr sd.cons gx.1) p
  refine ⟨h.choose.cur, (h.choose.wk, h.choose.hid), ?_, ⟨?_, g'.wet⟩, g'.clean, ?_⟩
  · simp only [hydOf]
    rw [dif_pos h]
  · rw [e]; exact gx.1.trans ss
  · rw [e]; exact switches_next _ _ _

/-! ### An example -/

/-- Step sizes from 1 s to 200 s, the filter `h0211` (the default), a safety factor of 0.8. -/
def quietFilter : Filter := ⟨1 / 4, h0211, 1, 200, 1 / 2, 3 / 2, 4 / 5, 2⟩

theorem quiet_growth : 1 < growth quietFilter eps := by
  have h1 : (3 / 2 : ℝ) ≤ (1 / 4 / eps) ^ (1 / 2 : ℝ) := by
    have : (3 / 2 : ℝ) = ((3 / 2 : ℝ) ^ (2 : ℝ)) ^ (1 / 2 : ℝ) := by
      rw [← Real.rpow_mul (by norm_num)]; norm_num
    rw [this]
    refine Real.rpow_le_rpow (by positivity) ?_ (by norm_num)
    rw [show (2 : ℝ) = ((2 : ℕ) : ℝ) by norm_num, Real.rpow_natCast]
    norm_num [eps]
  have h2 : quietFilter.q.beta / quietFilter.k = 1 / 2 := by norm_num [quietFilter, Coeffs.beta, h0211]
  unfold growth
  rw [h2]
  change 1 < 4 / 5 * min ((1 / 4 / eps) ^ (1 / 2 : ℝ)) (3 / 2)
  rw [min_eq_right h1]
  norm_num

theorem stillResting : Resting (hydOf (inModel false) inPlan) loopCfg
    (fun s => SameState (inModel false) ((inModel false).start (inGiven 1)) s ∧ ∀ I, (inModel false).min_depth ≤ s.h I)
    (fun w => CleanWork (inModel false) w.1.mats ∧ Switches w.2) ((inModel false).start (inGiven 1)).H 200 := by
  have hh : ∀ I, ((inModel false).start (inGiven 1)).h I = 1 := fun _ => rfl
  have hH : ∀ j, ((inModel false).start (inGiven 1)).H j = 1 := inStart false 1
  refine C201_steady (inSound false) (inTables false) rfl ⟨fun i _ => ?_, fun k _ j _ => ?_, fun k hk j h1 h2 => ?_, fun k _ => ?_⟩
    (fun t dt h => ⟨h, fun p hp => by simp [inModel, reModel] at hp, fun a ha => by simp [inModel, reModel] at ha⟩)
    (fun t dt hid Ao cur hd hD sw ss wet _ => ⟨⟨fun k hk => ?_, fun k hk => ?_, ?_, ?_, ?_⟩, ⟨?_, ?_, ?_, ?_, ?_, ?_, ?_, ?_, ?_⟩⟩)
  · rw [hH]; norm_num [inModel, reModel]
  · rw [hh]; norm_num [inModel, reModel]
  · simp [inModel, reModel] at h2; omega
  · norm_num [inModel, reModel]
  · have k0 : k = 0 := by simpa [inModel, reModel] using hk
    subst k0
    simp only [Model.geoOf]
    rw [upTo_of_lt _ hk]
    have h1 := wet ((inModel false).ix.I_1k 0)
    have h2 := ss.H 0 (by norm_num [inModel, reModel])
    rw [hH] at h2
    have p1 : 0 < cur.h ((inModel false).ix.I_1k 0) := lt_of_lt_of_le (by norm_num [inModel, reModel]) h1
    have p2 : 0 ≤ hid.thu 0 * (cur.H ((inModel false).Ju 0) - (inModel false).z_uk 0) := by
      rw [show cur.H ((inModel false).Ju 0) = 1 from h2]
      rcases (sw 0).1 with e | e <;> rw [e] <;> norm_num [inModel, reModel]
    exact Geometry.area_pos (s := .rectOpen) (p := ⟨2, 1, 0, 0, 0, 0, 0⟩) (by norm_num [Geometry.Valid, Geometry.Wettable]) (by linarith)
  · have k0 : k = 0 := by simpa [inModel, reModel] using hk
    subst k0
    simp only [Model.geoOf]
    rw [upTo_of_lt _ hk]
    have h1 := wet ((inModel false).ix.I_1k 0 + (inModel false).ix.nk 0)
    have h2 := ss.H 1 (by norm_num [inModel, reModel])
    rw [hH] at h2
    have p1 : 0 < cur.h ((inModel false).ix.I_1k 0 + (inModel false).ix.nk 0) :=
      lt_of_lt_of_le (by norm_num [inModel, reModel]) h1
    have p2 : 0 ≤ hid.thd 0 * (cur.H ((inModel false).Jd 0) - (inModel false).z_dk 0) := by
      rw [show cur.H ((inModel false).Jd 0) = 1 from h2]
      rcases (sw 0).2 with e | e <;> rw [e] <;> norm_num [inModel, reModel]
    exact Geometry.area_pos (s := .rectOpen) (p := ⟨2, 1, 0, 0, 0, 0, 0⟩) (by norm_num [Geometry.Valid, Geometry.Wettable]) (by linarith)
  · intro o ho; simp [inModel, reModel] at ho
  · intro o ho; simp [inModel, reModel] at ho
  · intro o ho; simp [inModel, reModel] at ho
  · intro i _ hb; simp [inModel] at hb
  · intro i _ _
    simp [netInto, inModel, reModel, Model.start, inGiven, loopCfg, reInp]
  · intro k _ j _
    simp [velocityUp, velocityDown, arriving, leaving, inModel, reModel, Model.start, inGiven]
  · intro k _ j _
    simp [arriving, leaving, inModel, reModel, Model.start, inGiven, loopCfg, reInp]
  · intro k _
    rw [hH, hh]; simp [inModel, reModel]
  · intro k _
    rw [hH, hh]; simp [inModel, reModel]
  all_goals (intro o ho; simp [inModel, reModel] at ho)

/-- Water standing 1 m deep in a channel and the two superjunctions it joins: the documented adaptive loop, started with 1 s
steps, uses two subdivisions and ten retries without a rejection and takes steps of 200 s from some iteration on. -/
example : ∃ (s : Sim Hyd (Work × Hidden)) (p : ℕ → Sim Hyd (Work × Hidden) × ℝ), s.m.x.H 0 = 1 ∧ p 0 = (s, 1) ∧
    (∀ n, adaptiveBody (hydOf (inModel false) inPlan) loopCfg quietFilter 2 10 2 (p n) = .ok (p (n + 1))) ∧
    ∃ N, ∀ n, N ≤ n → (p n).2 = 200 ∧ (p (n + 1)).1.m.t = (p n).1.m.t + 200 := by
  have wet : ∀ I, (inModel false).min_depth ≤ (inGiven 1).hJ I := fun _ => by norm_num [inModel, reModel, inGiven]
  have g := blankGood wet
  let s : Sim Hyd (Work × Hidden) :=
    ⟨⟨0, 0, ((inModel false).blank (inGiven 1)).cur, (0, ((inModel false).blank (inGiven 1)).cur),
      (((inModel false).blank (inGiven 1)).wk, ((inModel false).blank (inGiven 1)).hid)⟩, 1, [1], [.val eps], 0⟩
  have i : Quiet (fun x => SameState (inModel false) ((inModel false).start (inGiven 1)) x ∧ ∀ I, (inModel false).min_depth ≤ x.h I)
      (fun w => CleanWork (inModel false) w.1.mats ∧ Switches w.2) 200 (s, 1) :=
    ⟨⟨SameState.refl _ _, wet⟩, ⟨g.clean, fun _ => ⟨Or.inr rfl, Or.inr rfl⟩⟩, by norm_num, by norm_num, rfl, by simp [s]⟩
  obtain ⟨p, h0, h1, -, N, hN⟩ := C201_run (f := quietFilter) (norm := 2) stillResting (by norm_num [loopCfg])
    (fun j _ => by rw [inStart]; norm_num) le_rfl 10 (Or.inr (Or.inr (Or.inl rfl))) (by norm_num [quietFilter])
    (by norm_num [quietFilter]) (by norm_num [quietFilter]) mean_documented.2.1 (by norm_num [quietFilter])
    (by norm_num [quietFilter]) (by norm_num [quietFilter]) quiet_growth i
  exact ⟨s, p, inStart false 1 0, h0, h1, N, hN⟩

/-- A pond whose level stays at `z`, for the exception. -/
def pond (z : ℝ) : Hydraulics Unit Unit Unit := ⟨1, fun _ _ => some z, fun _ _ _ _ _ => .ok ((), ()), fun _ w => w⟩

example : ∃ m' sv, attempt (pond (-1e-3)) ⟨60, 1, 1 / 400, 1, fun _ => ()⟩ 2 2 60 ⟨0, 0, (), (0, ()), ()⟩ = .ok (m', .nan, sv) := by
  have R : Resting (pond (-1e-3)) ⟨60, 1, 1 / 400, 1, fun _ => ()⟩ (fun _ => True) (fun _ => True) (fun _ => -1e-3) 60 :=
    ⟨fun _ _ _ _ _ _ _ _ _ _ => ⟨(), (), rfl, trivial, trivial⟩, fun _ _ _ => trivial, fun _ _ _ _ => rfl⟩
  obtain ⟨m', sv, h, -⟩ := C201_minus_one_mm R (by norm_num) (j := 0) (show 0 < 1 by norm_num) rfl (le_refl 2)
    (norm := 2) (Or.inr (Or.inr (Or.inl rfl))) (by norm_num) (dt := 60) (by norm_num) le_rfl (m := ⟨0, 0, (), (0, ()), ()⟩) ⟨trivial, trivial⟩
  exact ⟨m', sv, h⟩

end

end Pipedream.Driver
