import Verif.RootProps

/-!
# C39, C139: when the bracketed root finder returns

For arbitrary functions the number of iterations is bounded by the square of the number of halvings of the
interval; for the residual of the Green–Ampt equation (decreasing, concave, with a concave slope that starts
at zero) by that number itself.
-/

namespace Pipedream.Root

open Pipedream.Link

/-! ### Arbitrary functions -/

/-- Where a tightened bracket lies: it keeps one end, and the other is the new point. -/
theorem tighten_width {f df : ℝ → ℝ} {s : BState} {dx x : ℝ} (hx : Hull s.lb s.ub x) :
    |(tighten f df s dx x).ub - (tighten f df s dx x).lb| ≤ |s.ub - s.lb| := by
  unfold Hull at hx
  simp only [tighten]
  rcases le_total s.lb s.ub with h | h
  · rw [min_eq_left h, max_eq_right h] at hx
    rw [abs_of_nonneg (sub_nonneg.mpr h)]
    split_ifs <;> rw [abs_le] <;> constructor <;> linarith [hx.1, hx.2]
  · rw [min_eq_right h, max_eq_left h] at hx
    rw [abs_of_nonpos (sub_nonpos.mpr h)]
    split_ifs <;> rw [abs_le] <;> constructor <;> linarith [hx.1, hx.2]

/-- A bisection halves the bracket. -/
theorem tighten_mid (f df : ℝ → ℝ) (s : BState) (dx : ℝ) :
    |(tighten f df s dx (s.lb + 0.5 * (s.ub - s.lb))).ub -
      (tighten f df s dx (s.lb + 0.5 * (s.ub - s.lb))).lb| = |s.ub - s.lb| / 2 := by
  simp only [tighten]
  have h : |s.ub - s.lb| / 2 = |0.5 * (s.ub - s.lb)| := by
    rw [abs_mul]; norm_num; ring
  rw [h]
  split_ifs
  · congr 1; ring
  · congr 1; ring

/-- A Newton step that is taken is at most half as long as the correction before it. -/
theorem newton_halves {s : BState} (h0 : ¬ cond0 s) (h1 : ¬ cond1 s) : |s.fx / s.dfx| ≤ |s.dx| / 2 := by
  obtain ⟨hne, -⟩ := newton_inside h0
  unfold cond1 at h1
  push Not at h1
  rw [abs_div, div_le_iff₀ (abs_pos.mpr hne)]
  rw [abs_mul, abs_mul, abs_of_pos (by norm_num : (0 : ℝ) < 2)] at h1
  linarith

/-- `m` halvings of the bracket and `j` of the correction are enough for the budget `j + m (m + 1) / 2`. -/
theorem loop_returns {f df : ℝ → ℝ} {atol : ℝ} (n : ℕ) :
    ∀ (m j : ℕ) (s : BState), 0 < m → 0 < j → |s.ub - s.lb| < 2 ^ m * atol → |s.dx| < 2 ^ j * atol →
      2 * j + m * (m + 1) ≤ 2 * n → ∃ r, boundedLoop f df atol n s = .ok r := by
  induction n with
  | zero => intro m j s hm hj _ _ hn; omega
  | succ n ih =>
    intro m j s hm hj hw hd hn
    rw [boundedLoop]
    unfold advance
    by_cases hc : cond0 s ∨ cond1 s
    · rw [if_pos hc]
      simp only [bind, Except.bind]
      have hdx : |0.5 * (s.ub - s.lb)| = |s.ub - s.lb| / 2 := by
        rw [abs_mul]; norm_num; ring
      split_ifs with hlt
      · exact ⟨_, rfl⟩
      · rw [hdx] at hlt
        obtain ⟨m, rfl⟩ : ∃ k, m = k + 1 := ⟨m - 1, by omega⟩
        have hm0 : 0 < m := by
          rcases Nat.eq_zero_or_pos m with h | h
          · subst h; norm_num at hw; exfalso; linarith
          · exact h
        rw [pow_succ] at hw
        refine ih m m _ hm0 hm0 ?_ ?_ ?_
        · rw [tighten_mid]; linarith
        · show |0.5 * (s.ub - s.lb)| < _
          rw [hdx]; linarith
        · nlinarith
    · rw [if_neg hc]
      push Not at hc
      obtain ⟨hne, hin⟩ := newton_inside hc.1
      have hh := newton_halves hc.1 hc.2
      simp only [pyDiv_ok _ hne, bind, Except.bind]
      split_ifs with hlt
      · exact ⟨_, rfl⟩
      · obtain ⟨j, rfl⟩ : ∃ k, j = k + 1 := ⟨j - 1, by omega⟩
        have hj0 : 0 < j := by
          rcases Nat.eq_zero_or_pos j with h | h
          · subst h; norm_num at hd; exfalso; linarith
          · exact h
        rw [pow_succ] at hd
        refine ih m j _ hm hj0 ((tighten_width hin).trans_lt hw) ?_ (by omega)
        show |s.fx / s.dfx| < _
        linarith

/-- **C39 (returns).** Whatever the function and whatever is passed for its derivative: an interval that
`m ≥ 1` halvings make shorter than the tolerance is solved within `m (m + 3) / 2` iterations. -/
theorem C39_returns {f df : ℝ → ℝ} {x0 a b atol : ℝ} {m n : ℕ} (hm : 0 < m) (hw : |b - a| < 2 ^ m * atol)
    (hn : m * (m + 3) ≤ 2 * n) : ∃ r, boundedNewtonRaphson f df x0 a b n atol = .ok r := by
  unfold boundedNewtonRaphson
  have e : |(initState f df x0 a b).ub - (initState f df x0 a b).lb| = |b - a| ∧
      |(initState f df x0 a b).dx| = |b - a| := by
    simp only [initState]
    split_ifs
    · exact ⟨abs_sub_comm _ _, by rw [abs_abs, abs_sub_comm]⟩
    · exact ⟨rfl, abs_abs _⟩
  exact loop_returns n m m _ hm hm (by rw [e.1]; exact hw) (by rw [e.2]; exact hw) (by nlinarith)

/-- **C39 (raises).** Without a usable derivative the search bisects, and an interval which the budget of
halvings does not make shorter than the tolerance is given up. -/
theorem loop_raises {f : ℝ → ℝ} {atol : ℝ} (k : ℕ) {s : BState} (hdf : s.dfx = 0)
    (hk : 2 ^ k * atol ≤ |s.ub - s.lb|) (h0 : 0 ≤ atol) :
    boundedLoop f (fun _ => 0) atol k s = .error .valueError := by
  induction k generalizing s with
  | zero => rfl
  | succ k ih =>
    have hc : cond0 s := by
      unfold cond0; rw [hdf]; nlinarith [mul_self_nonneg s.fx]
    have ha : advance s = .ok (0.5 * (s.ub - s.lb), s.lb + 0.5 * (s.ub - s.lb)) := by
      unfold advance; rw [if_pos (Or.inl hc)]
    have hdx : |0.5 * (s.ub - s.lb)| = |s.ub - s.lb| / 2 := by
      rw [abs_mul]; norm_num; ring
    rw [pow_succ] at hk
    have h1 : (1 : ℝ) ≤ 2 ^ k := one_le_pow₀ (by norm_num)
    simp only [boundedLoop, ha, bind, Except.bind]
    rw [if_neg (by rw [hdx]; nlinarith)]
    refine ih rfl ?_
    rw [tighten_mid]; linarith

theorem C39_bisection_iff {f : ℝ → ℝ} {x0 a b atol : ℝ} {n : ℕ} (hn : 0 < n) (h0 : 0 ≤ atol) :
    (∃ r, boundedNewtonRaphson f (fun _ => 0) x0 a b n atol = .ok r) ↔ |b - a| < 2 ^ n * atol := by
  unfold boundedNewtonRaphson
  have e : |(initState f (fun _ => 0) x0 a b).ub - (initState f (fun _ => 0) x0 a b).lb| = |b - a| := by
    simp only [initState]
    split_ifs
    · exact abs_sub_comm _ _
    · rfl
  constructor
  · rintro ⟨r, hr⟩
    by_contra hc
    push Not at hc
    rw [loop_raises n rfl (by rw [e]; exact hc) h0] at hr
    cases hr
  · intro h
    exact C39_bisection_returns n rfl (by rw [e]; exact h) hn

/-- With the defaults of nutils.py (50 iterations, `1.48e-8`) intervals up to `3.7e-6` are solved whatever
the function; with the 1000 iterations and `1e-8` of utils.py intervals up to 87000. -/
example (f df : ℝ → ℝ) (x0 : ℝ) : (∃ r, boundedNewtonRaphson f df x0 0 3.7e-6 50 1.48e-8 = .ok r) ∧
    (∃ r, boundedNewtonRaphson f df x0 0 87000 1000 1e-8 = .ok r) :=
  ⟨C39_returns (m := 8) (by norm_num) (by norm_num [abs_of_pos]) (by norm_num),
    C39_returns (m := 43) (by norm_num) (by norm_num [abs_of_pos]) (by norm_num)⟩

/-! ### The pure-Python version -/

/-- **C140 (same search).** With the same budget and tolerance the pure-Python version returns what the
compiled one returns, and `None` where that raises. -/
theorem C140_same (f df : ℝ → ℝ) (x0 a b eps : ℝ) (n : ℕ) :
    boundedNewtonRaphsonPy f df x0 a b n eps =
      match boundedNewtonRaphson f df x0 a b n eps with
      | .ok r => .ok (some r)
      | .error _ => .ok none := by
  unfold boundedNewtonRaphsonPy boundedNewtonRaphson
  generalize initState f df x0 a b = s
  induction n generalizing s with
  | zero => rfl
  | succ n ih =>
    obtain ⟨dx, x, he, -, -⟩ := advance_ok s
    simp only [boundedLoop, boundedLoopPy, he, bind, Except.bind]
    split_ifs
    · rfl
    · exact ih _

/-- **C140 (never raises).** The pure-Python version raises nothing: a failure is the value `None`. -/
theorem C140_never_raises (f df : ℝ → ℝ) (x0 a b eps : ℝ) (n : ℕ) :
    ∃ v, boundedNewtonRaphsonPy f df x0 a b n eps = .ok v := by
  rw [C140_same]
  cases boundedNewtonRaphson f df x0 a b n eps with
  | ok r => exact ⟨_, rfl⟩
  | error e => exact ⟨_, rfl⟩

/-- **C140 (what it returns).** A value that is not `None` lies in the caller's interval and was reached by a
last correction below the tolerance; `None` is returned only after the whole budget, and not at all on an
interval which the budget covers. -/
theorem C140_value {f df : ℝ → ℝ} {x0 a b eps r : ℝ} {n : ℕ}
    (h : boundedNewtonRaphsonPy f df x0 a b n eps = .ok (some r)) :
    Hull a b r ∧ Converged f df a b eps r := by
  rw [C140_same] at h
  cases hb : boundedNewtonRaphson f df x0 a b n eps with
  | error e => rw [hb] at h; cases h
  | ok q =>
    rw [hb] at h
    simp only [Except.ok.injEq, Option.some.injEq] at h
    subst h
    exact ⟨C39_in_interval hb, C39_converged hb⟩

theorem C140_returns {f df : ℝ → ℝ} {x0 a b eps : ℝ} {m n : ℕ} (hm : 0 < m) (hw : |b - a| < 2 ^ m * eps)
    (hn : m * (m + 3) ≤ 2 * n) : ∃ r, boundedNewtonRaphsonPy f df x0 a b n eps = .ok (some r) := by
  obtain ⟨r, hr⟩ := C39_returns (f := f) (df := df) (x0 := x0) hm hw hn
  exact ⟨r, by rw [C140_same, hr]⟩

/-- **C140 (the defaults differ).** A search without a usable derivative over an interval of `10^8`: with
their own defaults the compiled version gives up and raises, the pure-Python version finds a value. -/
theorem C140_defaults (f : ℝ → ℝ) (x0 : ℝ) :
    boundedNewtonRaphson f (fun _ => 0) x0 0 (10 ^ 8) 50 1.48e-8 = .error .valueError ∧
    ∃ r, boundedNewtonRaphsonPy f (fun _ => 0) x0 0 (10 ^ 8) 1000 1e-8 = .ok (some r) := by
  constructor
  · unfold boundedNewtonRaphson
    refine loop_raises 50 rfl ?_ (by norm_num)
    have e : |(initState f (fun _ => 0) x0 0 (10 ^ 8)).ub - (initState f (fun _ => 0) x0 0 (10 ^ 8)).lb| =
        10 ^ 8 := by
      simp only [initState]
      split_ifs <;> norm_num
    rw [e]; norm_num
  · obtain ⟨r, hr⟩ : ∃ r, boundedNewtonRaphson f (fun _ => 0) x0 0 (10 ^ 8) 1000 1e-8 = .ok r := by
      rw [C39_bisection_iff (by norm_num) (by norm_num)]
      have h1 : (2 : ℝ) ^ 60 ≤ 2 ^ 1000 := pow_le_pow_right₀ (by norm_num) (by norm_num)
      have h2 : (10 : ℝ) ^ 8 < 2 ^ 60 * 1e-8 := by norm_num
      rw [sub_zero, abs_of_pos (by norm_num)]
      exact h2.trans_le (mul_le_mul_of_nonneg_right h1 (by norm_num))
    exact ⟨r, by rw [C140_same, hr]⟩

/-! ### Decreasing concave functions whose slope is concave -/

/-- What the search uses of the Green–Ampt residual on `[0, B]`: it lies below its tangents, is at least as
steep as the mean of the slopes at the ends of any stretch, gets steeper, and no faster than in proportion. -/
structure Concave (f df : ℝ → ℝ) (B : ℝ) : Prop where
  tangent : ∀ y z, 0 ≤ y → y ≤ B → 0 ≤ z → z ≤ B → f z ≤ f y + df y * (z - y)
  trapezoid : ∀ y z, 0 ≤ z → z ≤ y → y ≤ B → f y - f z ≤ (y - z) * ((df y + df z) / 2)
  steeper : ∀ y z, 0 ≤ z → z < y → y ≤ B → df y < df z
  ratio : ∀ y z, 0 ≤ z → z ≤ y → y ≤ B → y * df z ≤ z * df y
  falls : ∀ y, 0 < y → y ≤ B → df y < 0

namespace Concave

variable {f df : ℝ → ℝ} {B : ℝ}

theorem anti (h : Concave f df B) {y z : ℝ} (hz : 0 ≤ z) (hzy : z < y) (hy : y ≤ B) : f y < f z := by
  have h1 := h.trapezoid y z hz hzy.le hy
  have h2 := h.falls y (by linarith) hy
  have h3 := h.steeper y z hz hzy hy
  have h4 : df z ≤ 0 := by
    by_contra hc
    push Not at hc
    have := h.ratio y z hz hzy.le hy
    nlinarith [mul_pos (lt_of_le_of_lt hz hzy) hc]
  nlinarith

/-- A Newton step lands beyond the root. -/
theorem beyond (h : Concave f df B) {x r : ℝ} (hx : 0 < x) (hxB : x ≤ B) (hr : 0 ≤ r) (hrB : r ≤ B)
    (h0 : f r = 0) (hne : x ≠ r) : r < x - f x / df x := by
  have hd := h.falls x hx hxB
  have key : df x * (x - r) < f x := by
    set c := (x + r) / 2 with hc
    have hc0 : 0 ≤ c := by rw [hc]; linarith
    have hcB : c ≤ B := by rw [hc]; linarith
    have t1 := h.tangent x c hx.le hxB hc0 hcB
    have t2 := h.tangent c r hc0 hcB hr hrB
    rw [h0] at t2
    rcases lt_or_gt_of_ne hne with hl | hl
    · have hs := h.steeper c x hx.le (by rw [hc]; linarith) hcB
      have e1 : c - x = (r - x) / 2 := by rw [hc]; ring
      have e2 : r - c = (r - x) / 2 := by rw [hc]; ring
      rw [e1] at t1; rw [e2] at t2
      nlinarith
    · have hs := h.steeper x c hc0 (by rw [hc]; linarith) hxB
      have e1 : c - x = (r - x) / 2 := by rw [hc]; ring
      have e2 : r - c = (r - x) / 2 := by rw [hc]; ring
      rw [e1] at t1; rw [e2] at t2
      nlinarith
  have : f x / df x < x - r := by rw [div_lt_iff_of_neg hd]; nlinarith
  linarith

/-- From beyond the root a Newton step covers at least half the distance. -/
theorem half (h : Concave f df B) {x r : ℝ} (hr : 0 ≤ r) (hrx : r < x) (hxB : x ≤ B) (h0 : f r = 0) :
    x - r ≤ 2 * (f x / df x) := by
  have hd := h.falls x (by linarith) hxB
  have ht := h.trapezoid x r hr hrx.le hxB
  rw [h0, sub_zero] at ht
  have hdr : df r ≤ 0 := by
    rcases hr.eq_or_lt with h' | h'
    · subst h'
      have := h.ratio x 0 le_rfl hrx.le hxB
      nlinarith
    · exact (h.falls r h' (by linarith)).le
  have : (x - r) / 2 ≤ f x / df x := by
    rw [le_div_iff_of_neg hd]; nlinarith
  linarith

/-- Two Newton steps in a row beyond the root, the second from a slope at least half as steep: the second is
at most half as long. -/
theorem next (h : Concave f df B) {x : ℝ} (hx : 0 < x) (hxB : x ≤ B) (hs : 0 ≤ f x / df x)
    (hx' : 0 < x - f x / df x) (hslope : df (x - f x / df x) ≤ df x / 2) :
    2 * (f (x - f x / df x) / df (x - f x / df x)) ≤ f x / df x := by
  have hd := h.falls x hx hxB
  set s := f x / df x with hsd
  have e : f x = s * df x := (div_mul_cancel₀ _ hd.ne).symm
  have hd' := h.falls (x - s) hx' (by linarith)
  have ht := h.trapezoid x (x - s) hx'.le (by linarith) hxB
  rw [e] at ht
  have : f (x - s) / df (x - s) ≤ s / 2 := by
    rw [div_le_iff_of_neg hd']; nlinarith
  linarith

/-- The same after a Newton step from before the root. -/
theorem next_left (h : Concave f df B) {x : ℝ} (hx : 0 < x) (hs : f x / df x ≤ 0)
    (hx' : x - f x / df x ≤ B) (hslope : df x ≤ df (x - f x / df x) / 2) :
    2 * (f (x - f x / df x) / df (x - f x / df x)) ≤ -(f x / df x) := by
  have hxB : x ≤ B := by linarith
  have hd := h.falls x hx hxB
  set s := f x / df x with hsd
  have e : f x = s * df x := (div_mul_cancel₀ _ hd.ne).symm
  have hd' := h.falls (x - s) (by linarith) hx'
  have ht := h.tangent (x - s) x (by linarith) hx' hx.le hxB
  rw [e] at ht
  have : f (x - s) / df (x - s) ≤ -s / 2 := by
    rw [div_le_iff_of_neg hd']; nlinarith
  linarith

end Concave

variable {f df : ℝ → ℝ} {B r atol : ℝ}

/-- The state of the search and what is known of it in every phase: the root lies in the bracket. -/
structure At (f df : ℝ → ℝ) (B r : ℝ) (s : BState) : Prop where
  fx : s.fx = f s.x
  dfx : s.dfx = df s.x
  x_pos : 0 < s.x
  x_le : s.x ≤ B
  ub_nonneg : 0 ≤ s.ub
  ub_le : s.ub ≤ r
  le_lb : r ≤ s.lb
  lb_le : s.lb ≤ B

theorem advance_newton {s : BState} (h0 : ¬ cond0 s) (h1 : ¬ cond1 s) :
    advance s = .ok (s.fx / s.dfx, s.x - s.fx / s.dfx) := by
  unfold advance
  rw [if_neg (by push Not; exact ⟨h0, h1⟩)]
  simp [pyDiv_ok _ (newton_inside h0).1, bind, Except.bind]

theorem advance_bisect {s : BState} (h : cond0 s ∨ cond1 s) :
    advance s = .ok (0.5 * (s.ub - s.lb), s.lb + 0.5 * (s.ub - s.lb)) := by
  unfold advance; rw [if_pos h]

/-- `cond_1` in terms of the step that would be taken. -/
theorem cond1_iff {s : BState} (hne : s.dfx ≠ 0) : cond1 s ↔ |s.dx| < 2 * |s.fx / s.dfx| := by
  unfold cond1
  rw [abs_mul, abs_mul, abs_of_pos (by norm_num : (0 : ℝ) < 2), abs_div, ← mul_div_assoc,
    lt_div_iff₀ (abs_pos.mpr hne)]

/-- Beyond the root Newton's method stays in the bracket. -/
theorem inside_right (hc : Concave f df B) (h0 : f r = 0) {s : BState} (hs : At f df B r s)
    (hr : 0 < r) (hx : r < s.x) (hlb : s.x ≤ s.lb) : ¬ cond0 s := by
  have hr0 := hr.le
  have hd := hc.falls s.x hs.x_pos hs.x_le
  have hb := hc.beyond hs.x_pos hs.x_le hr0 (hs.le_lb.trans hs.lb_le) h0 hx.ne'
  have hneg : f s.x < 0 := by
    have := hc.anti hr0 hx hs.x_le; rwa [h0] at this
  unfold cond0
  rw [hs.fx, hs.dfx]
  push Not
  have h1 : f s.x / df s.x < s.x - s.ub := by linarith [hs.ub_le]
  rw [div_lt_iff_of_neg hd] at h1
  have h2 : 0 < (s.x - s.lb) * df s.x - f s.x := by
    have : 0 ≤ (s.x - s.lb) * df s.x := mul_nonneg_of_nonpos_of_nonpos (by linarith) hd.le
    linarith
  exact mul_neg_of_neg_of_pos (by linarith) h2

/-- Newton steps beyond the root within a factor two of it: the corrections halve. -/
theorem chain (hc : Concave f df B) (h0 : f r = 0) (hr : 0 < r) (k : ℕ) :
    ∀ s : BState, At f df B r s → r < s.x → s.lb = s.x → s.x ≤ 2 * r →
      2 * (f s.x / df s.x) ≤ |s.dx| → |s.dx| < 2 ^ (k + 1) * atol →
      ∃ q, boundedLoop f df atol (k + 1) s = .ok q := by
  induction k with
  | zero =>
    intro s hs hx hlb h2 hstep hdx
    have hd := hc.falls s.x hs.x_pos hs.x_le
    have hneg : f s.x < 0 := by
      have := hc.anti hr.le hx hs.x_le; rwa [h0] at this
    have hpos : 0 < f s.x / df s.x := div_pos_of_neg_of_neg hneg hd
    have hn0 := inside_right hc h0 hs hr hx hlb.ge
    have hn1 : ¬ cond1 s := by
      rw [cond1_iff (by rw [hs.dfx]; exact hd.ne), hs.fx, hs.dfx, abs_of_pos hpos]; linarith
    rw [boundedLoop, advance_newton hn0 hn1]
    simp only [bind, Except.bind]
    rw [if_pos]
    · exact ⟨_, rfl⟩
    · rw [hs.fx, hs.dfx, abs_of_pos hpos]; norm_num at hdx; linarith
  | succ k ih =>
    intro s hs hx hlb h2 hstep hdx
    have hd := hc.falls s.x hs.x_pos hs.x_le
    have hneg : f s.x < 0 := by
      have := hc.anti hr.le hx hs.x_le; rwa [h0] at this
    have hpos : 0 < f s.x / df s.x := div_pos_of_neg_of_neg hneg hd
    have hn0 := inside_right hc h0 hs hr hx hlb.ge
    have hn1 : ¬ cond1 s := by
      rw [cond1_iff (by rw [hs.dfx]; exact hd.ne), hs.fx, hs.dfx, abs_of_pos hpos]; linarith
    rw [boundedLoop, advance_newton hn0 hn1]
    simp only [bind, Except.bind]
    split_ifs with hlt
    · exact ⟨_, rfl⟩
    · have hb := hc.beyond hs.x_pos hs.x_le hr.le (hs.le_lb.trans hs.lb_le) h0 hx.ne'
      rw [hs.fx, hs.dfx]
      set x' := s.x - f s.x / df s.x with hx'
      have hle : x' < s.x := by rw [hx']; linarith
      have hneg' : f x' < 0 := by
        have := hc.anti hr.le hb (hle.le.trans hs.x_le); rwa [h0] at this
      refine ih _ ?_ hb ?_ (by show x' ≤ _; linarith) ?_ ?_
      · refine ⟨rfl, rfl, hr.trans hb, hle.le.trans hs.x_le, ?_, ?_, ?_, ?_⟩ <;>
          simp only [tighten, if_pos hneg']
        · exact hs.ub_nonneg
        · exact hs.ub_le
        · exact hb.le
        · exact hle.le.trans hs.x_le
      · simp only [tighten, if_pos hneg']
      · show 2 * (f x' / df x') ≤ |f s.x / df s.x|
        rw [abs_of_pos hpos]
        refine hc.next hs.x_pos hs.x_le hpos.le (hr.trans hb) ?_
        have hra := hc.ratio s.x x' (hr.trans hb).le hle.le hs.x_le
        have hx'' : 0 < x' := hr.trans hb
        have hd' := hc.falls x' hx'' (hle.le.trans hs.x_le)
        have : s.x ≤ 2 * x' := by linarith
        by_contra hcon
        push Not at hcon
        change df s.x / 2 < df x' at hcon
        nlinarith [mul_nonneg (sub_nonneg.mpr this) (neg_nonneg.mpr hd'.le)]
      · show |f s.x / df s.x| < _
        rw [abs_of_pos hpos]
        rw [pow_succ] at hdx
        linarith

/-- Slopes at two points within a factor two of each other. -/
theorem slope_ratio (hc : Concave f df B) {y z : ℝ} (hz : 0 < z) (hzy : z ≤ y) (hy : y ≤ B)
    (h2 : y ≤ 2 * z) : df z ≤ df y / 2 := by
  have hra := hc.ratio y z hz.le hzy hy
  have hd := hc.falls z hz (hzy.trans hy)
  by_contra hcon
  push Not at hcon
  nlinarith [mul_nonneg (sub_nonneg.mpr h2) (neg_nonneg.mpr hd.le)]

/-- Slopes that differ by more than a factor two lie more than a factor two apart. -/
theorem apart (hc : Concave f df B) {y z : ℝ} (hz : 0 < z) (hzy : z ≤ y) (hy : y ≤ B)
    (h : df y / 2 < df z) : 2 * z < y := by
  by_contra hcon
  push Not at hcon
  exact absurd (slope_ratio hc hz hzy hy hcon) (not_le.mpr h)

/-- After a bisection, within a factor two: every iteration bisects again or starts the chain. -/
theorem narrow (hc : Concave f df B) (h0 : f r = 0) (hr : 0 < r) (k : ℕ) :
    ∀ s : BState, At f df B r s → 0 < s.ub → s.lb ≤ 2 * s.ub → |s.dx| = s.lb - s.ub →
      (s.x = s.ub ∨ (s.x = s.lb ∧ r < s.x)) → s.lb - s.ub < 2 ^ (k + 1) * atol →
      ∃ q, boundedLoop f df atol (k + 1) s = .ok q := by
  induction k with
  | zero =>
    intro s hs hub h2 hdx hx hw
    have hwpos : 0 ≤ s.lb - s.ub := by linarith [hs.ub_le, hs.le_lb]
    by_cases hb : cond0 s ∨ cond1 s
    · rw [boundedLoop, advance_bisect hb]
      simp only [bind, Except.bind]
      rw [if_pos]
      · exact ⟨_, rfl⟩
      · rw [abs_mul, abs_sub_comm, abs_of_nonneg hwpos]; norm_num at hw ⊢; linarith
    · push Not at hb
      rw [boundedLoop, advance_newton hb.1 hb.2]
      simp only [bind, Except.bind]
      rw [if_pos]
      · exact ⟨_, rfl⟩
      · have := newton_halves hb.1 hb.2
        rw [hdx] at this
        norm_num at hw
        linarith
  | succ k ih =>
    intro s hs hub h2 hdx hx hw
    have hwpos : 0 ≤ s.lb - s.ub := by linarith [hs.ub_le, hs.le_lb]
    rw [pow_succ] at hw
    by_cases hb : cond0 s ∨ cond1 s
    · rw [boundedLoop, advance_bisect hb]
      simp only [bind, Except.bind]
      split_ifs with hlt
      · exact ⟨_, rfl⟩
      · set m := s.lb + 0.5 * (s.ub - s.lb) with hm
        have hm' : m = (s.lb + s.ub) / 2 := by rw [hm]; ring
        have hmu : s.ub ≤ m := by rw [hm']; linarith
        have hml : m ≤ s.lb := by rw [hm']; linarith
        have hd : |0.5 * (s.ub - s.lb)| = (s.lb - s.ub) / 2 := by
          rw [abs_mul, abs_sub_comm, abs_of_nonneg hwpos]; norm_num; ring
        by_cases hf : f m < 0
        · have hrm : r < m := by
            by_contra hcon
            push Not at hcon
            rcases hcon.eq_or_lt with h | h
            · rw [h, h0] at hf; exact lt_irrefl _ hf
            · have := hc.anti (by linarith) h (hs.le_lb.trans hs.lb_le); rw [h0] at this; linarith
          refine ih _ ?_ ?_ ?_ ?_ ?_ ?_
          · refine ⟨rfl, rfl, hr.trans hrm, hml.trans hs.lb_le, ?_, ?_, ?_, ?_⟩ <;>
              simp only [tighten, if_pos hf]
            · exact hs.ub_nonneg
            · exact hs.ub_le
            · exact hrm.le
            · exact hml.trans hs.lb_le
          · simp only [tighten, if_pos hf]; exact hub
          · simp only [tighten, if_pos hf]; linarith
          · simp only [tighten, if_pos hf]; rw [hd, hm']; ring
          · right; simp only [tighten, if_pos hf]; exact ⟨trivial, hrm⟩
          · simp only [tighten, if_pos hf]; rw [hm']; linarith
        · have hrm : m ≤ r := by
            by_contra hcon
            push Not at hcon
            have := hc.anti hr.le hcon (hml.trans hs.lb_le); rw [h0] at this; exact hf this
          refine ih _ ?_ ?_ ?_ ?_ ?_ ?_
          · refine ⟨rfl, rfl, hub.trans_le hmu, hml.trans hs.lb_le, ?_, ?_, ?_, ?_⟩ <;>
              simp only [tighten, if_neg hf]
            · exact hs.ub_nonneg.trans hmu
            · exact hrm
            · exact hs.le_lb
            · exact hs.lb_le
          · simp only [tighten, if_neg hf]; exact hub.trans_le hmu
          · simp only [tighten, if_neg hf]; linarith
          · simp only [tighten, if_neg hf]; rw [hd, hm']; ring
          · left; simp only [tighten, if_neg hf]
          · simp only [tighten, if_neg hf]; rw [hm']; linarith
    · push Not at hb
      have hh := newton_halves hb.1 hb.2
      obtain ⟨-, hin⟩ := newton_inside hb.1
      rw [boundedLoop, advance_newton hb.1 hb.2]
      simp only [bind, Except.bind]
      split_ifs with hlt
      · exact ⟨_, rfl⟩
      · unfold Hull at hin
        rw [min_eq_right (by linarith [hs.ub_le, hs.le_lb]), max_eq_left (by linarith [hs.ub_le, hs.le_lb])]
          at hin
        rw [hdx] at hh
        rw [hs.fx, hs.dfx] at hh hin ⊢
        have hd := hc.falls s.x hs.x_pos hs.x_le
        have hrB := hs.le_lb.trans hs.lb_le
        have hxr : s.x ≠ r := by
          intro h
          rw [h, h0, zero_div] at hin
          have hn := hb.1
          unfold cond0 at hn
          rw [hs.fx, h, h0] at hn
          rcases hx with hx | hx
          · rw [← hx, h] at hn; simp at hn
          · exact absurd h hx.2.ne'
        have hbey := hc.beyond hs.x_pos hs.x_le hr.le hrB h0 hxr
        set x' := s.x - f s.x / df s.x with hx'
        have hx'B : x' ≤ B := hin.2.trans hs.lb_le
        have hneg' : f x' < 0 := by
          have := hc.anti hr.le hbey hx'B; rwa [h0] at this
        refine chain hc h0 hr k _ ?_ hbey ?_ ?_ ?_ ?_
        · refine ⟨rfl, rfl, hr.trans hbey, hx'B, ?_, ?_, ?_, ?_⟩ <;> simp only [tighten, if_pos hneg']
          · exact hs.ub_nonneg
          · exact hs.ub_le
          · exact hbey.le
          · exact hx'B
        · simp only [tighten, if_pos hneg']
        · show x' ≤ _
          linarith [hin.2, hs.ub_le]
        · show 2 * (f x' / df x') ≤ |f s.x / df s.x|
          rcases hx with hx | hx
          · have hpos : 0 < f s.x := by
              have hlt : s.x < r := lt_of_le_of_ne (hx.le.trans hs.ub_le) hxr
              have := hc.anti hs.x_pos.le hlt hrB; rwa [h0] at this
            have hq : f s.x / df s.x < 0 := div_neg_of_pos_of_neg hpos hd
            rw [abs_of_neg hq]
            refine hc.next_left hs.x_pos hq.le hx'B (slope_ratio hc hs.x_pos ?_ hx'B ?_)
            · linarith
            · change x' ≤ _; linarith [hin.2]
          · have hneg : f s.x < 0 := by
              have := hc.anti hr.le hx.2 hs.x_le; rwa [h0] at this
            have hq : 0 < f s.x / df s.x := div_pos_of_neg_of_neg hneg hd
            rw [abs_of_pos hq]
            refine hc.next hs.x_pos hs.x_le hq.le (hr.trans hbey) (slope_ratio hc (hr.trans hbey) ?_ hs.x_le ?_)
            · linarith
            · linarith [hs.ub_le, hx.1]
        · show |f s.x / df s.x| < _
          linarith

/-- Coming from the right, with nothing excluded on the left: the distance to the root halves, until a
bisection lands before the root. -/
theorem descend (hc : Concave f df B) (h0 : f r = 0) (hr : 0 < r) (k : ℕ) :
    ∀ s : BState, At f df B r s → r < s.x → s.lb = s.x → s.ub = 0 → s.x - r < 2 ^ k * atol →
      (2 * (f s.x / df s.x) ≤ |s.dx| ∨ s.x < 2 ^ (k + 1) * atol) →
      ∃ q, boundedLoop f df atol (k + 1) s = .ok q := by
  have newt : ∀ s : BState, At f df B r s → r < s.x → 0 < f s.x / df s.x := by
    intro s hs hx
    have hneg : f s.x < 0 := by
      have := hc.anti hr.le hx hs.x_le; rwa [h0] at this
    exact div_pos_of_neg_of_neg hneg (hc.falls s.x hs.x_pos hs.x_le)
  induction k with
  | zero =>
    intro s hs hx hlb hub he hor
    have hd := hc.falls s.x hs.x_pos hs.x_le
    have hpos := newt s hs hx
    have hn0 := inside_right hc h0 hs hr hx hlb.ge
    by_cases hn1 : cond1 s
    · rw [boundedLoop, advance_bisect (Or.inr hn1)]
      simp only [bind, Except.bind]
      rw [if_pos]
      · exact ⟨_, rfl⟩
      · rw [cond1_iff (by rw [hs.dfx]; exact hd.ne), hs.fx, hs.dfx, abs_of_pos hpos] at hn1
        rcases hor with h | h
        · exfalso; linarith
        · rw [hub, hlb, zero_sub, mul_neg, abs_neg, abs_mul, abs_of_pos hs.x_pos]
          norm_num at h ⊢; linarith
    · rw [boundedLoop, advance_newton hn0 hn1]
      simp only [bind, Except.bind]
      rw [if_pos]
      · exact ⟨_, rfl⟩
      · have hb := hc.beyond hs.x_pos hs.x_le hr.le (hs.le_lb.trans hs.lb_le) h0 hx.ne'
        rw [hs.fx, hs.dfx, abs_of_pos hpos]; norm_num at he; linarith
  | succ k ih =>
    intro s hs hx hlb hub he hor
    have hd := hc.falls s.x hs.x_pos hs.x_le
    have hpos := newt s hs hx
    have hn0 := inside_right hc h0 hs hr hx hlb.ge
    by_cases hn1 : cond1 s
    · rw [boundedLoop, advance_bisect (Or.inr hn1)]
      simp only [bind, Except.bind]
      rw [cond1_iff (by rw [hs.dfx]; exact hd.ne), hs.fx, hs.dfx, abs_of_pos hpos] at hn1
      have hsmall : s.x < 2 ^ (k + 1 + 1) * atol := by
        rcases hor with h | h
        · exfalso; linarith
        · exact h
      rw [pow_succ] at hsmall he
      have e1 : |0.5 * (s.ub - s.lb)| = s.x / 2 := by
        rw [hub, hlb, zero_sub, mul_neg, abs_neg, abs_mul, abs_of_pos hs.x_pos]; norm_num; ring
      split_ifs with hlt
      · exact ⟨_, rfl⟩
      · set m := s.lb + 0.5 * (s.ub - s.lb) with hm
        have hm' : m = s.x / 2 := by rw [hm, hub, hlb]; ring
        have hmx : m ≤ s.x := by rw [hm']; linarith [hs.x_pos]
        have hm0 : 0 < m := by rw [hm']; linarith [hs.x_pos]
        by_cases hf : f m < 0
        · have hrm : r < m := by
            by_contra hcon
            push Not at hcon
            rcases hcon.eq_or_lt with h | h
            · rw [h, h0] at hf; exact lt_irrefl _ hf
            · have := hc.anti hm0.le h (hs.le_lb.trans hs.lb_le); rw [h0] at this; linarith
          refine ih _ ?_ hrm ?_ ?_ ?_ (Or.inr ?_)
          · refine ⟨rfl, rfl, hm0, hmx.trans hs.x_le, ?_, ?_, ?_, ?_⟩ <;> simp only [tighten, if_pos hf]
            · exact hs.ub_nonneg
            · exact hs.ub_le
            · exact hrm.le
            · exact hmx.trans hs.x_le
          · simp only [tighten, if_pos hf]
          · simp only [tighten, if_pos hf]; exact hub
          · show m - r < _
            rw [hm']; linarith
          · show m < _
            rw [hm']; linarith
        · have hrm : m ≤ r := by
            by_contra hcon
            push Not at hcon
            have := hc.anti hr.le hcon (hmx.trans hs.x_le); rw [h0] at this; exact hf this
          refine narrow hc h0 hr k _ ?_ ?_ ?_ ?_ (Or.inl ?_) ?_
          · refine ⟨rfl, rfl, hm0, hmx.trans hs.x_le, ?_, ?_, ?_, ?_⟩ <;> simp only [tighten, if_neg hf]
            · exact hm0.le
            · exact hrm
            · exact hs.le_lb
            · exact hs.lb_le
          · simp only [tighten, if_neg hf]; exact hm0
          · simp only [tighten, if_neg hf]; rw [hlb, hm']; linarith
          · simp only [tighten, if_neg hf]; rw [e1, hlb, hm']; ring
          · simp only [tighten, if_neg hf]
          · simp only [tighten, if_neg hf]; rw [hlb, hm']; linarith
    · rw [boundedLoop, advance_newton hn0 hn1]
      simp only [bind, Except.bind]
      split_ifs with hlt
      · exact ⟨_, rfl⟩
      · have hb := hc.beyond hs.x_pos hs.x_le hr.le (hs.le_lb.trans hs.lb_le) h0 hx.ne'
        have hhalf := hc.half hr.le hx hs.x_le h0
        rw [hs.fx, hs.dfx]
        rw [pow_succ] at he
        set x' := s.x - f s.x / df s.x with hx'
        have hle : x' < s.x := by rw [hx']; linarith
        have hneg' : f x' < 0 := by
          have := hc.anti hr.le hb (hle.le.trans hs.x_le); rwa [h0] at this
        refine ih _ ?_ hb ?_ ?_ ?_ ?_
        · refine ⟨rfl, rfl, hr.trans hb, hle.le.trans hs.x_le, ?_, ?_, ?_, ?_⟩ <;>
            simp only [tighten, if_pos hneg']
          · exact hs.ub_nonneg
          · exact hs.ub_le
          · exact hb.le
          · exact hle.le.trans hs.x_le
        · simp only [tighten, if_pos hneg']
        · simp only [tighten, if_pos hneg']; exact hub
        · show x' - r < _
          rw [hx']; linarith
        · show 2 * (f x' / df x') ≤ |f s.x / df s.x| ∨ x' < _
          rw [abs_of_pos hpos]
          by_cases hsl : df x' ≤ df s.x / 2
          · exact Or.inl (hc.next hs.x_pos hs.x_le hpos.le (hr.trans hb) hsl)
          · right
            push Not at hsl
            have := apart hc (hr.trans hb) hle.le hs.x_le hsl
            rw [pow_succ]
            linarith

/-- **The bracketed search on `[0, B]` for a residual with a root there** takes no more iterations than two
plus the halvings of a quarter of the interval. -/
theorem concave_returns (hc : Concave f df B) (hr : 0 < r) (hrB : r ≤ B) (h0 : f r = 0) (hatol : 0 < atol)
    {x0 : ℝ} (k : ℕ) (hB : B < 2 ^ (k + 2) * atol) :
    ∃ q, boundedNewtonRaphson f df x0 0 B (k + 2) atol = .ok q := by
  have hB0 : 0 < B := hr.trans_le hrB
  have hini : initState f df x0 0 B = ⟨B / 2, B, 0, B, f (B / 2), df (B / 2)⟩ := by
    have h1 : f B < f 0 := hc.anti le_rfl hB0 le_rfl
    have h2 : x0 < B ∨ 0 < x0 := by
      by_contra hcon
      push Not at hcon
      linarith
    simp only [initState, if_pos h1, if_pos h2, add_zero, zero_sub, abs_neg, abs_of_pos hB0]
  unfold boundedNewtonRaphson
  rw [hini]
  set s : BState := ⟨B / 2, B, 0, B, f (B / 2), df (B / 2)⟩ with hs
  have hAt : At f df B r s := ⟨rfl, rfl, by show 0 < B / 2; linarith, by show B / 2 ≤ B; linarith, le_rfl,
    hr.le, hrB, le_rfl⟩
  have hxe : s.x = B / 2 := rfl
  have hd := hc.falls s.x hAt.x_pos hAt.x_le
  rw [pow_succ, pow_succ] at hB
  rw [boundedLoop]
  by_cases hb : cond0 s ∨ cond1 s
  · -- a bisection at once: the root is not before the middle
    have hxr : s.x ≤ r := by
      by_contra hcon
      push Not at hcon
      have hneg : f s.x < 0 := by
        have := hc.anti hr.le hcon hAt.x_le; rwa [h0] at this
      have hpos : 0 < f s.x / df s.x := div_pos_of_neg_of_neg hneg hd
      rcases hb with hb | hb
      · exact inside_right hc h0 hAt hr hcon hAt.x_le hb
      · rw [cond1_iff hd.ne] at hb
        have hbey := hc.beyond hAt.x_pos hAt.x_le hr.le hrB h0 hcon.ne'
        change |B| < 2 * |f s.x / df s.x| at hb
        rw [abs_of_pos hB0, abs_of_pos hpos] at hb
        linarith
    rw [advance_bisect hb]
    simp only [bind, Except.bind]
    have hm : s.lb + 0.5 * (s.ub - s.lb) = B / 2 := by show B + 0.5 * (0 - B) = B / 2; ring
    have e1 : |0.5 * (s.ub - s.lb)| = B / 2 := by
      show |0.5 * (0 - B)| = B / 2
      rw [zero_sub, mul_neg, abs_neg, abs_mul, abs_of_pos hB0]; norm_num; ring
    rw [hm]
    split_ifs with hlt
    · exact ⟨_, rfl⟩
    · have hf : ¬ f (B / 2) < 0 := by
        rcases hxr.eq_or_lt with h | h
        · rw [← hxe, h, h0]; exact lt_irrefl _
        · have := hc.anti hAt.x_pos.le h hrB
          rw [h0, hxe] at this; exact not_lt.mpr this.le
      refine narrow hc h0 hr k _ ?_ ?_ ?_ ?_ (Or.inl ?_) ?_
      · refine ⟨rfl, rfl, by show 0 < B / 2; linarith, by show B / 2 ≤ B; linarith, ?_, ?_, ?_, ?_⟩ <;>
          simp only [tighten, if_neg hf]
        · linarith
        · exact hxr
        · exact hrB
        · exact le_rfl
      · simp only [tighten, if_neg hf]; linarith
      · simp only [tighten, if_neg hf]; show B ≤ _; linarith
      · simp only [tighten, if_neg hf]; rw [e1]; show B / 2 = B - B / 2; ring
      · simp only [tighten, if_neg hf]
      · simp only [tighten, if_neg hf]; show B - B / 2 < _; rw [pow_succ]; linarith
  · push Not at hb
    have hh := newton_halves hb.1 hb.2
    change |f s.x / df s.x| ≤ |B| / 2 at hh
    rw [abs_of_pos hB0] at hh
    obtain ⟨-, hin⟩ := newton_inside hb.1
    change min B 0 ≤ s.x - f s.x / df s.x ∧ s.x - f s.x / df s.x ≤ max B 0 at hin
    rw [min_eq_right hB0.le, max_eq_left hB0.le] at hin
    rw [advance_newton hb.1 hb.2]
    simp only [bind, Except.bind]
    split_ifs with hlt
    · exact ⟨_, rfl⟩
    · change ∃ q, boundedLoop f df atol (k + 1)
        (tighten f df s (f s.x / df s.x) (s.x - f s.x / df s.x)) = .ok q
      have hxr : s.x ≠ r := by
        intro h
        apply hlt
        change |f s.x / df s.x| < atol
        rw [h, h0, zero_div, abs_zero]; exact hatol
      have hbey := hc.beyond hAt.x_pos hAt.x_le hr.le hrB h0 hxr
      set x' := s.x - f s.x / df s.x with hx'
      have hneg' : f x' < 0 := by
        have := hc.anti hr.le hbey hin.2; rwa [h0] at this
      have hAt' : At f df B r (tighten f df s (f s.x / df s.x) x') := by
        refine ⟨rfl, rfl, hr.trans hbey, hin.2, ?_, ?_, ?_, ?_⟩ <;> simp only [tighten, if_pos hneg']
        · exact le_rfl
        · exact hr.le
        · exact hbey.le
        · exact hin.2
      have hlb' : (tighten f df s (f s.x / df s.x) x').lb = x' := by simp only [tighten, if_pos hneg']
      have hub' : (tighten f df s (f s.x / df s.x) x').ub = 0 := by simp only [tighten, if_pos hneg']; rfl
      rcases lt_or_gt_of_ne hxr with hlt' | hgt
      · -- from before the root
        have hpos : 0 < f s.x := by
          have := hc.anti hAt.x_pos.le hlt' hrB; rwa [h0] at this
        have hq : f s.x / df s.x < 0 := div_neg_of_pos_of_neg hpos hd
        refine chain hc h0 hr k _ hAt' hbey hlb' ?_ ?_ ?_
        · show x' ≤ 2 * r
          linarith [hin.2]
        · show 2 * (f x' / df x') ≤ |f s.x / df s.x|
          rw [abs_of_neg hq]
          refine hc.next_left hAt.x_pos hq.le hin.2 (slope_ratio hc hAt.x_pos ?_ hin.2 ?_)
          · linarith
          · change x' ≤ _; linarith [hin.2]
        · show |f s.x / df s.x| < _
          rw [pow_succ]; linarith
      · have hneg : f s.x < 0 := by
          have := hc.anti hr.le hgt hAt.x_le; rwa [h0] at this
        have hq : 0 < f s.x / df s.x := div_pos_of_neg_of_neg hneg hd
        have hhalf := hc.half hr.le hgt hAt.x_le h0
        have hle : x' < s.x := by rw [hx']; linarith
        refine descend hc h0 hr k _ hAt' hbey hlb' hub' ?_ ?_
        · show x' - r < _
          rw [hx']; linarith
        · show 2 * (f x' / df x') ≤ |f s.x / df s.x| ∨ x' < _
          rw [abs_of_pos hq]
          by_cases hsl : df x' ≤ df s.x / 2
          · exact Or.inl (hc.next hAt.x_pos hAt.x_le hq.le (hr.trans hbey) hsl)
          · right
            push Not at hsl
            have := apart hc (hr.trans hbey) hle.le hAt.x_le hsl
            rw [pow_succ]
            linarith

end Pipedream.Root
