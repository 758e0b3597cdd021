import Verif.RootModel
import Verif.LinkProps
import Mathlib.Topology.Order.IntermediateValue
import Mathlib.Topology.Instances.Real.Lemmas

/-!
# C39: root finders
-/

namespace Pipedream.Root

open Pipedream.Link Set

/-- Between the two ends, in either order. -/
def Hull (a b x : ℝ) : Prop := min a b ≤ x ∧ x ≤ max a b

theorem hull_mid (a b : ℝ) : Hull a b (a + 0.5 * (b - a)) := by
  unfold Hull
  rcases le_total a b with h | h
  · rw [min_eq_left h, max_eq_right h]; constructor <;> norm_num <;> linarith
  · rw [min_eq_right h, max_eq_left h]; constructor <;> norm_num <;> linarith

theorem hull_left (a b : ℝ) : Hull a b a := ⟨min_le_left _ _, le_max_left _ _⟩
theorem hull_right (a b : ℝ) : Hull a b b := ⟨min_le_right _ _, le_max_right _ _⟩

theorem hull_trans {a b c d x : ℝ} (hc : Hull a b c) (hd : Hull a b d) (h : Hull c d x) : Hull a b x :=
  ⟨(le_min hc.1 hd.1).trans h.1, h.2.trans (max_le hc.2 hd.2)⟩

/-- A Newton step that is taken lands strictly inside the bracket, and its derivative is not zero. -/
theorem newton_inside {s : BState} (h : ¬ cond0 s) :
    s.dfx ≠ 0 ∧ Hull s.lb s.ub (s.x - s.fx / s.dfx) := by
  unfold cond0 at h
  push Not at h
  have hne : s.dfx ≠ 0 := by
    intro h0
    rw [h0] at h
    nlinarith [mul_self_nonneg s.fx]
  refine ⟨hne, ?_⟩
  set y := s.x - s.fx / s.dfx with hy
  have e1 : (s.x - s.ub) * s.dfx - s.fx = s.dfx * (y - s.ub) := by rw [hy]; field_simp; ring
  have e2 : (s.x - s.lb) * s.dfx - s.fx = s.dfx * (y - s.lb) := by rw [hy]; field_simp; ring
  rw [e1, e2] at h
  have hp : 0 < s.dfx ^ 2 := by positivity
  have h' : (y - s.ub) * (y - s.lb) < 0 := by
    by_contra hc
    push Not at hc
    nlinarith [mul_nonneg hp.le hc]
  unfold Hull
  rcases le_total s.lb s.ub with hl | hl
  · rw [min_eq_left hl, max_eq_right hl]
    constructor <;> nlinarith
  · rw [min_eq_right hl, max_eq_left hl]
    constructor <;> nlinarith

/-- `advance` never raises and stays inside the bracket. -/
theorem advance_ok (s : BState) : ∃ dx x, advance s = .ok (dx, x) ∧ Hull s.lb s.ub x ∧
    ((dx = 0.5 * (s.ub - s.lb) ∧ x = s.lb + dx) ∨
     (s.dfx ≠ 0 ∧ dx = s.fx / s.dfx ∧ x = s.x - dx)) := by
  unfold advance
  by_cases h : cond0 s ∨ cond1 s
  · rw [if_pos h]
    exact ⟨_, _, rfl, hull_mid _ _, Or.inl ⟨rfl, rfl⟩⟩
  · rw [if_neg h]
    push Not at h
    obtain ⟨hne, hin⟩ := newton_inside h.1
    refine ⟨s.fx / s.dfx, s.x - s.fx / s.dfx, ?_, hin, Or.inr ⟨hne, rfl, rfl⟩⟩
    simp [pyDiv_ok _ hne, bind, Except.bind]

/-- What is known about the loop state: everything lies in the caller's interval and `fx`, `dfx` are the
values at `x`. -/
structure Inv (f df : ℝ → ℝ) (a b : ℝ) (s : BState) : Prop where
  x_in : Hull a b s.x
  lb_in : Hull a b s.lb
  ub_in : Hull a b s.ub
  fx_eq : s.fx = f s.x
  dfx_eq : s.dfx = df s.x

theorem inv_init (f df : ℝ → ℝ) (x0 a b : ℝ) : Inv f df a b (initState f df x0 a b) := by
  have hl : Hull a b (if f b < f a then b else a) := by
    split_ifs
    · exact hull_right _ _
    · exact hull_left _ _
  have hu : Hull a b (if f b < f a then a else b) := by
    split_ifs
    · exact hull_left _ _
    · exact hull_right _ _
  refine ⟨?_, hl, hu, rfl, rfl⟩
  simp only [initState]
  generalize (if f b < f a then b else a) = l at *
  generalize (if f b < f a then a else b) = u at *
  split_ifs with h
  · refine hull_trans hl hu ?_
    have := hull_mid l u
    have e : l + 0.5 * (u - l) = (l + u) / 2 := by ring
    rwa [e] at this
  · push Not at h
    exact ⟨hl.1.trans h.1, h.2.trans hu.2⟩

theorem inv_tighten {f df : ℝ → ℝ} {a b : ℝ} {s : BState} (hs : Inv f df a b s) {dx x : ℝ}
    (hx : Hull s.lb s.ub x) : Inv f df a b (tighten f df s dx x) := by
  have hx' := hull_trans hs.lb_in hs.ub_in hx
  refine ⟨hx', ?_, ?_, rfl, rfl⟩
  · simp only [tighten]; split_ifs
    · exact hx'
    · exact hs.lb_in
  · simp only [tighten]; split_ifs
    · exact hs.ub_in
    · exact hx'

theorem loop_in {f df : ℝ → ℝ} {a b atol : ℝ} (k : ℕ) {s : BState} (hs : Inv f df a b s) {r : ℝ}
    (h : boundedLoop f df atol k s = .ok r) : Hull a b r := by
  induction k generalizing s with
  | zero => simp [boundedLoop] at h
  | succ k ih =>
    obtain ⟨dx, x, he, hx, -⟩ := advance_ok s
    simp only [boundedLoop, he, bind, Except.bind] at h
    split_ifs at h with hd
    · injection h with h
      rw [← h]; exact hull_trans hs.lb_in hs.ub_in hx
    · exact ih (inv_tighten hs hx) h

/-- **C39 (result in the interval).** Whatever the functions, whatever the initial guess — inside the
interval or not — a returned value lies in the caller's interval. -/
theorem C39_in_interval {f df : ℝ → ℝ} {x0 a b atol r : ℝ} {n : ℕ}
    (h : boundedNewtonRaphson f df x0 a b n atol = .ok r) : Hull a b r :=
  loop_in n (inv_init f df x0 a b) h

/-- **C39 (only raises ValueError).** It never divides by zero: the only exception is the `ValueError`
of an exhausted iteration budget. -/
theorem C39_raises_only {f df : ℝ → ℝ} {x0 a b atol : ℝ} {n : ℕ} {e : PyErr}
    (h : boundedNewtonRaphson f df x0 a b n atol = .error e) : e = .valueError := by
  unfold boundedNewtonRaphson at h
  generalize initState f df x0 a b = s at h
  induction n generalizing s with
  | zero => simp only [boundedLoop, Except.error.injEq] at h; exact h.symm
  | succ k ih =>
    obtain ⟨dx, x, he, -, -⟩ := advance_ok s
    simp only [boundedLoop, he, bind, Except.bind] at h
    split_ifs at h with hd
    exact ih _ h

theorem loop_congr {f g df dg : ℝ → ℝ} {a b atol : ℝ} (hf : ∀ x, Hull a b x → f x = g x)
    (hd : ∀ x, Hull a b x → df x = dg x) (k : ℕ) {s : BState} (hs : Inv f df a b s) :
    boundedLoop f df atol k s = boundedLoop g dg atol k s := by
  induction k generalizing s with
  | zero => rfl
  | succ k ih =>
    obtain ⟨dx, x, he, hx, -⟩ := advance_ok s
    have hx' := hull_trans hs.lb_in hs.ub_in hx
    have et : tighten f df s dx x = tighten g dg s dx x := by
      simp only [tighten, hf x hx', hd x hx']
    simp only [boundedLoop, he, bind, Except.bind]
    split_ifs with hc
    · rfl
    · rw [← et]; exact ih (inv_tighten hs hx)

/-- **C39 (functions evaluated only inside the interval).** Two functions which agree on the caller's
interval give the same outcome: nothing outside the interval is ever looked at. -/
theorem C39_only_inside {f g df dg : ℝ → ℝ} {x0 a b atol : ℝ} {n : ℕ}
    (hf : ∀ x, Hull a b x → f x = g x) (hd : ∀ x, Hull a b x → df x = dg x) :
    boundedNewtonRaphson f df x0 a b n atol = boundedNewtonRaphson g dg x0 a b n atol := by
  unfold boundedNewtonRaphson
  have hi : initState f df x0 a b = initState g dg x0 a b := by
    have hx := (inv_init f df x0 a b).x_in
    have fa := hf a (hull_left a b)
    have fb := hf b (hull_right a b)
    simp only [initState] at hx ⊢
    rw [fa, fb] at hx
    rw [fa, fb, hf _ hx, hd _ hx]
  rw [← hi]
  exact loop_congr hf hd n (inv_init f df x0 a b)

/-- A valid bracket: `f` is not positive at `lb` and not negative at `ub`. -/
def Brackets (f : ℝ → ℝ) (l u : ℝ) : Prop := f l ≤ 0 ∧ 0 ≤ f u

theorem brackets_tighten {f df : ℝ → ℝ} {s : BState} (h : Brackets f s.lb s.ub) (dx x : ℝ) :
    Brackets f (tighten f df s dx x).lb (tighten f df s dx x).ub := by
  simp only [tighten]
  split_ifs with hx
  · exact ⟨hx.le, h.2⟩
  · exact ⟨h.1, not_lt.mp hx⟩

theorem brackets_init {f df : ℝ → ℝ} {x0 a b : ℝ} (h : f a * f b ≤ 0) :
    Brackets f (initState f df x0 a b).lb (initState f df x0 a b).ub := by
  simp only [initState, Brackets]
  split_ifs with hlt
  · constructor <;> nlinarith
  · push Not at hlt
    constructor
    · by_contra hc; push Not at hc; nlinarith [mul_pos hc (lt_of_lt_of_le hc hlt)]
    · by_contra hc; push Not at hc; nlinarith [mul_pos_of_neg_of_neg (lt_of_le_of_lt hlt hc) hc]

/-- How a returned value `r` came about, in terms of `f` alone: there is a bracket `[l, u]` inside the
caller's interval which contains `r`, and either `r` is its midpoint and half its width is below the
tolerance, or `r` is a Newton step of length below the tolerance from a point of the interval. -/
def Converged (f df : ℝ → ℝ) (a b atol r : ℝ) : Prop :=
  ∃ l u, Hull a b l ∧ Hull a b u ∧ (f a * f b ≤ 0 → Brackets f l u) ∧ Hull l u r ∧
    ((r = (l + u) / 2 ∧ |u - l| / 2 < atol) ∨
     (∃ y, Hull a b y ∧ df y ≠ 0 ∧ r = y - f y / df y ∧ |f y / df y| < atol))

theorem loop_converged {f df : ℝ → ℝ} {a b atol : ℝ} (k : ℕ) {s : BState} (hs : Inv f df a b s)
    (hb : f a * f b ≤ 0 → Brackets f s.lb s.ub) {r : ℝ}
    (h : boundedLoop f df atol k s = .ok r) : Converged f df a b atol r := by
  induction k generalizing s with
  | zero => simp [boundedLoop] at h
  | succ k ih =>
    obtain ⟨dx, x, he, hx, hcase⟩ := advance_ok s
    simp only [boundedLoop, he, bind, Except.bind] at h
    split_ifs at h with hd
    · injection h with h
      subst h
      refine ⟨s.lb, s.ub, hs.lb_in, hs.ub_in, hb, hx, ?_⟩
      rcases hcase with ⟨h1, h2⟩ | ⟨h1, h2, h3⟩
      · refine Or.inl ⟨by rw [h2, h1]; ring, ?_⟩
        have e : dx = (s.ub - s.lb) / 2 := by rw [h1]; ring
        rw [e, abs_div, abs_of_pos (by norm_num : (0 : ℝ) < 2)] at hd
        exact hd
      · rw [hs.dfx_eq] at h1 h2
        rw [hs.fx_eq] at h2
        exact Or.inr ⟨s.x, hs.x_in, h1, by rw [h3, h2], by rw [← h2]; exact hd⟩
    · exact ih (inv_tighten hs hx) (fun hab => brackets_tighten (hb hab) dx x) h

/-- **C39 (converged when it returns).** For all functions, guesses, intervals, budgets and tolerances:
a returned value was reached by a last correction below the tolerance, inside a bracket that is valid
whenever the caller's interval was. -/
theorem C39_converged {f df : ℝ → ℝ} {x0 a b atol r : ℝ} {n : ℕ}
    (h : boundedNewtonRaphson f df x0 a b n atol = .ok r) : Converged f df a b atol r :=
  loop_converged n (inv_init f df x0 a b) (fun hab => brackets_init hab) h

/-- A bracket of a continuous function contains a root. -/
theorem bracket_root {f : ℝ → ℝ} {l u : ℝ} (hc : ContinuousOn f (uIcc l u)) (hb : Brackets f l u) :
    ∃ z, Hull l u z ∧ f z = 0 := by
  have := intermediate_value_uIcc hc
  have h0 : (0 : ℝ) ∈ uIcc (f l) (f u) := mem_uIcc.mpr (Or.inl ⟨hb.1, hb.2⟩)
  obtain ⟨z, hz, hz0⟩ := this h0
  exact ⟨z, by rwa [uIcc] at hz, hz0⟩

/-- **C39 (distance to a root).** If `f` is continuous on the interval and changes sign over it, then a
value returned by bisection is within the tolerance of a true root. -/
theorem C39_near_root {f df : ℝ → ℝ} {x0 a b atol r : ℝ} {n : ℕ}
    (hc : ContinuousOn f (uIcc a b)) (hab : f a * f b ≤ 0)
    (h : boundedNewtonRaphson f df x0 a b n atol = .ok r) :
    (∃ z, Hull a b z ∧ f z = 0 ∧ |r - z| < atol) ∨
    (∃ y, Hull a b y ∧ df y ≠ 0 ∧ r = y - f y / df y ∧ |f y| < atol * |df y|) := by
  obtain ⟨l, u, hl, hu, hb, hr, hcase⟩ := C39_converged h
  rcases hcase with ⟨h1, h2⟩ | ⟨y, hy, hne, h1, h2⟩
  · left
    have hsub : uIcc l u ⊆ uIcc a b := by
      intro z hz
      exact hull_trans hl hu (by rwa [uIcc] at hz)
    obtain ⟨z, hz, hz0⟩ := bracket_root (hc.mono hsub) (hb hab)
    refine ⟨z, hull_trans hl hu hz, hz0, lt_of_le_of_lt ?_ h2⟩
    rw [h1, abs_le]
    unfold Hull at hz
    rcases le_total l u with hle | hle
    · rw [min_eq_left hle, max_eq_right hle] at hz
      rw [abs_of_nonneg (by linarith)]
      constructor <;> linarith [hz.1, hz.2]
    · rw [min_eq_right hle, max_eq_left hle] at hz
      rw [abs_of_nonpos (by linarith)]
      constructor <;> linarith [hz.1, hz.2]
  · right
    refine ⟨y, hy, hne, h1, ?_⟩
    rw [abs_div, div_lt_iff₀ (abs_pos.mpr hne)] at h2
    exact h2

/-- **C39 (bisection ends).** Where the derivative gives no information (it is zero) the iteration
bisects, and it returns as soon as the budget covers the halvings of the bracket. -/
theorem C39_bisection_returns {f : ℝ → ℝ} {atol : ℝ} (k : ℕ) {s : BState} (hdf : s.dfx = 0)
    (hk : |s.ub - s.lb| < 2 ^ k * atol) (hpos : 0 < k) :
    ∃ r, boundedLoop f (fun _ => 0) atol k s = .ok r := by
  induction k generalizing s with
  | zero => omega
  | succ k ih =>
    have hc : cond0 s := by
      unfold cond0; rw [hdf]; nlinarith [mul_self_nonneg s.fx]
    have ha : advance s = .ok (0.5 * (s.ub - s.lb), s.lb + 0.5 * (s.ub - s.lb)) := by
      unfold advance; rw [if_pos (Or.inl hc)]
    simp only [boundedLoop, ha, bind, Except.bind]
    split_ifs with hd
    · exact ⟨_, rfl⟩
    · have hdx : |0.5 * (s.ub - s.lb)| = |s.ub - s.lb| / 2 := by
        rw [abs_mul]; norm_num; ring
      rw [hdx] at hd
      have hk0 : 0 < k := by
        rcases Nat.eq_zero_or_pos k with h | h
        · subst h; rw [zero_add, pow_one] at hk; exfalso; linarith
        · exact h
      apply ih rfl _ hk0
      simp only [tighten]
      rw [pow_succ] at hk
      split_ifs
      · have : s.ub - (s.lb + 0.5 * (s.ub - s.lb)) = 0.5 * (s.ub - s.lb) := by ring
        rw [this, hdx]; linarith
      · have : s.lb + 0.5 * (s.ub - s.lb) - s.lb = 0.5 * (s.ub - s.lb) := by ring
        rw [this, hdx]; linarith

/-- **C39 (plain Newton).** `newton_raphson` returns either an exact root, or a point reached by a
Newton step whose length is within `atol + rtol·|p₀|`; it raises nothing but `ValueError`. -/
theorem C39_newton {f df : ℝ → ℝ} {x0 atol rtol r : ℝ} {n : ℕ}
    (h : newtonRaphson f df x0 n atol rtol = .ok r) :
    f r = 0 ∨ ∃ p0, df p0 ≠ 0 ∧ r = p0 - f p0 / df p0 ∧ |r - p0| ≤ atol + rtol * |p0| := by
  unfold newtonRaphson at h
  induction n generalizing x0 with
  | zero => simp [newtonLoop] at h
  | succ k ih =>
    unfold newtonLoop at h
    split_ifs at h with h1 h2
    · injection h with h; rw [← h]; exact Or.inl h1
    · simp only [pyDiv_ok _ h2, bind, Except.bind] at h
      split_ifs at h with h3
      · injection h with h
        subst h
        exact Or.inr ⟨x0, h2, rfl, h3⟩
      · exact ih h

theorem C39_newton_raises_only {f df : ℝ → ℝ} {x0 atol rtol : ℝ} {n : ℕ} {e : PyErr}
    (h : newtonRaphson f df x0 n atol rtol = .error e) : e = .valueError := by
  unfold newtonRaphson at h
  induction n generalizing x0 with
  | zero => simp only [newtonLoop, Except.error.injEq] at h; exact h.symm
  | succ k ih =>
    unfold newtonLoop at h
    split_ifs at h with h1 h2
    · injection h with h; exact h.symm
    · simp only [pyDiv_ok _ h2, bind, Except.bind] at h
      split_ifs at h with h3
      exact ih h

/-- `x - 1` on `[0, 4]` from the guess 3: one Newton step of length 2 finds the root. -/
example : boundedNewtonRaphson (fun x => x - 1) (fun _ => 1) 3 0 4 50 (5 / 2) = .ok 1 := by
  unfold boundedNewtonRaphson
  have e : initState (fun x : ℝ => x - 1) (fun _ => 1) 3 0 4 = ⟨3, 0, 4, 4, 2, 1⟩ := by
    simp only [initState]; norm_num
  rw [e]
  have a1 : advance ⟨3, 0, 4, 4, 2, 1⟩ = .ok (2, 1) := by
    unfold advance
    rw [if_neg (by unfold cond0 cond1; norm_num)]
    norm_num [pyDiv, bind, Except.bind]
  rw [show (50 : ℕ) = 49 + 1 from rfl, boundedLoop, a1]
  show (if |(2 : ℝ)| < 5 / 2 then Except.ok 1 else _) = _
  rw [if_pos (by norm_num)]

end Pipedream.Root
