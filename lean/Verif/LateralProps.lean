import Verif.LevelProps

/-!
# C156: more lateral inflow lowers no level

Two steps from the same state, the second with more lateral inflow into the junctions of pipes. The levels of the second step
should be nowhere lower. They are not, as long as the water at the receiving junctions does not pass a link in one step
(Courant condition), or stands still; where it does, additional inflow takes momentum from the stream and lowers the levels
below it.
-/

namespace Pipedream.Step

open Pipedream.Sweep Pipedream.Link Pipedream.Superlink Pipedream.Control Pipedream.Network

/-! ### One superlink -/

section
variable {K : Type*} [Field K] [LinearOrder K] [IsStrictOrderedRing K]

/-- Differences of two solutions of the equations of a superlink: flows `p`, depths `d`, lateral inflows `e`, momentum
coefficients `t`, `al`, `be`. -/
structure Change (n : ℕ) (t al be a c E : ℕ → K) (e p d : ℕ → K) (pu pd : K) : Prop where
  link : ∀ i, i < n → t i * p i = al i * d i - be i * d (i + 1) + a i * e i - c i * e (i + 1)
  node : ∀ i, i ≤ n → qOut n p pd i - qIn p pu i + E i * d i = e i

variable {n : ℕ} {t al be a c E e p d : ℕ → K} {pu pd ku kd : K}

/-- Signs of the coefficients. -/
structure ChangeSigns (n : ℕ) (t al be a c E : ℕ → K) : Prop where
  t : ∀ i, i < n → 0 < t i
  al : ∀ i, i < n → 0 < al i
  be : ∀ i, i < n → 0 < be i
  a : ∀ i, i < n → a i ≤ 0
  c : ∀ i, i < n → c i ≤ 0
  E : ∀ i, i ≤ n → 0 ≤ E i

/-- What lies downstream of junction `j` and receives nothing follows the flow entering junction `j`. -/
theorem follow_down (sg : ChangeSigns n t al be a c E) (ch : Change n t al be a c E e p d pu pd) (kd0 : 0 ≤ kd)
    (hd : d n = kd * pd) (m : ℕ) :
    ∀ j, j + m = n → (∀ i, j ≤ i → i ≤ n → e i = 0) →
    ∃ r, 0 ≤ r ∧ (j < n → 0 < r) ∧ d j = r * qIn p pu j ∧ (∀ i, j ≤ i → i ≤ n → ∃ s, 0 ≤ s ∧ d i = s * qIn p pu j) ∧
      ∃ s, 0 < s ∧ pd = s * qIn p pu j := by
  induction m with
  | zero =>
    intro j hj he
    obtain rfl : j = n := by omega
    have nd := ch.node j le_rfl
    rw [qOut_end, he j le_rfl le_rfl, hd] at nd
    have E0 := sg.E j le_rfl
    have D : 0 < 1 + E j * kd := by positivity
    have e1 : pd = 1 / (1 + E j * kd) * qIn p pu j := by
      field_simp; linear_combination nd
    have e2 : d j = kd / (1 + E j * kd) * qIn p pu j := by
      rw [hd, e1]; field_simp
    refine ⟨kd / (1 + E j * kd), by positivity, fun h => absurd h (lt_irrefl _), e2, fun i h1 h2 => ?_, _, by positivity, e1⟩
    obtain rfl : i = j := by omega
    exact ⟨_, by positivity, e2⟩
  | succ m ih =>
    intro j hj he
    have jn : j < n := by omega
    obtain ⟨r, r0, -, hr, hall, s, s0, hs⟩ := ih (j + 1) (by omega) (fun i h1 h2 => he i (by omega) h2)
    rw [qIn_succ] at hr hs
    have lk := ch.link j jn
    have nd := ch.node j jn.le
    rw [he j le_rfl jn.le, he (j + 1) (by omega) jn, hr] at lk
    rw [qOut_lt _ _ jn, he j le_rfl jn.le] at nd
    have t0 := sg.t j jn
    have a0 := sg.al j jn
    have b0 := sg.be j jn
    have E0 := sg.E j jn.le
    have T : 0 < t j + be j * r := by positivity
    have e1 : p j = al j / (t j + be j * r) * d j := by
      field_simp; linear_combination lk
    have k0 : 0 < al j / (t j + be j * r) := by positivity
    have e2 : d j = 1 / (al j / (t j + be j * r) + E j) * qIn p pu j := by
      have : 0 < al j / (t j + be j * r) + E j := by positivity
      rw [eq_comm, div_mul_eq_mul_div, one_mul, div_eq_iff this.ne']
      linear_combination -nd + e1
    set G := al j / (t j + be j * r) with hG
    have GE : 0 < G + E j := by positivity
    refine ⟨1 / (G + E j), by positivity, fun _ => by positivity, e2, fun i h1 h2 => ?_, s * (G * (1 / (G + E j))), by positivity, ?_⟩
    · rcases eq_or_lt_of_le h1 with h | h
      · rw [← h]; exact ⟨_, by positivity, e2⟩
      · obtain ⟨s', s0', hs'⟩ := hall i h h2
        rw [qIn_succ, e1, e2] at hs'
        exact ⟨s' * (G * (1 / (G + E j))), by positivity, by rw [hs']; ring⟩
    · rw [hs, e1, e2]; ring

/-- What lies upstream of junction `j` and receives nothing follows the flow leaving junction `j`. -/
theorem follow_up (sg : ChangeSigns n t al be a c E) (ch : Change n t al be a c E e p d pu pd) (ku0 : ku ≤ 0)
    (hu : d 0 = ku * pu) :
    ∀ j, j ≤ n → (∀ i, i ≤ j → e i = 0) →
    ∃ r, 0 ≤ r ∧ (0 < j → 0 < r) ∧ d j = -r * qOut n p pd j ∧ (∀ i, i ≤ j → ∃ s, 0 ≤ s ∧ d i = -s * qOut n p pd j) ∧
      ∃ s, 0 < s ∧ pu = s * qOut n p pd j := by
  intro j
  induction j with
  | zero =>
    intro hj he
    have nd := ch.node 0 hj
    rw [qIn_zero, he 0 le_rfl, hu] at nd
    have E0 := sg.E 0 hj
    have D : 0 < 1 - E 0 * ku := by nlinarith
    have e1 : pu = 1 / (1 - E 0 * ku) * qOut n p pd 0 := by
      rw [eq_comm, div_mul_eq_mul_div, one_mul, div_eq_iff D.ne']; linear_combination nd
    have e2 : d 0 = -(-ku / (1 - E 0 * ku)) * qOut n p pd 0 := by
      rw [hu, e1]; ring
    have r0 : 0 ≤ -ku / (1 - E 0 * ku) := div_nonneg (by linarith) D.le
    refine ⟨_, r0, fun h => absurd h (lt_irrefl _), e2, fun i h1 => ?_, _, by positivity, e1⟩
    obtain rfl : i = 0 := by omega
    exact ⟨_, r0, e2⟩
  | succ j ih =>
    intro hj he
    have jn : j < n := by omega
    obtain ⟨r, r0, -, hr, hall, s, s0, hs⟩ := ih jn.le (fun i h1 => he i (by omega))
    rw [qOut_lt _ _ jn] at hr hs
    have lk := ch.link j jn
    have nd := ch.node (j + 1) hj
    rw [he j (by omega), he (j + 1) le_rfl, hr] at lk
    rw [qIn_succ, he (j + 1) le_rfl] at nd
    have t0 := sg.t j jn
    have a0 := sg.al j jn
    have b0 := sg.be j jn
    have E0 := sg.E (j + 1) hj
    have T : 0 < t j + al j * r := by positivity
    have e1 : p j = -(be j / (t j + al j * r)) * d (j + 1) := by
      field_simp; linear_combination lk
    have k0 : 0 < be j / (t j + al j * r) := by positivity
    set G := be j / (t j + al j * r) with hG
    have GE : 0 < G + E (j + 1) := by positivity
    have e2 : d (j + 1) = -(1 / (G + E (j + 1))) * qOut n p pd (j + 1) := by
      rw [eq_comm, neg_mul, div_mul_eq_mul_div, one_mul, ← neg_div, div_eq_iff GE.ne']
      linear_combination -nd - e1
    refine ⟨1 / (G + E (j + 1)), by positivity, fun _ => by positivity, e2, fun i h1 => ?_, s * (G * (1 / (G + E (j + 1)))),
      by positivity, ?_⟩
    · rcases Nat.le_succ_iff.mp h1 with h | h
      · obtain ⟨s', s0', hs'⟩ := hall i h
        rw [qOut_lt _ _ jn, e1, e2] at hs'
        exact ⟨s' * (G * (1 / (G + E (j + 1)))), by positivity, by rw [hs']; ring⟩
      · rw [h]; exact ⟨_, by positivity, e2⟩
    · rw [hs, e1, e2]; ring

/-- Inflow into the first junction. -/
theorem source_first (hn : 1 ≤ n) (sg : ChangeSigns n t al be a c E) (ch : Change n t al be a c E e p d pu pd)
    (ku0 : ku ≤ 0) (kd0 : 0 ≤ kd) (hu : d 0 = ku * pu) (hd : d n = kd * pd) (he : ∀ i, 1 ≤ i → i ≤ n → e i = 0)
    (e0 : 0 ≤ e 0) {A0 : K} (hal : al 0 = A0 - a 0 * E 0) :
    (0 ≤ e 0 * (a 0 - A0 * ku) → (∀ i, i ≤ n → 0 ≤ d i) ∧ pu ≤ 0 ∧ 0 ≤ pd) ∧
    (e 0 * (a 0 - A0 * ku) < 0 → pu ≤ 0 ∧ pd < 0) := by
  obtain ⟨r, r0, -, hr, hall, s, s0, hs⟩ := follow_down sg ch kd0 hd (n - 1) 1 (by omega) he
  have q1 : qIn p pu 1 = p 0 := qIn_succ _ _ 0
  rw [q1] at hr hs
  have lk := ch.link 0 (by omega)
  have nd := ch.node 0 (by omega)
  rw [zero_add, he 1 le_rfl hn, hr, hu] at lk
  rw [qOut_lt _ _ (by omega), qIn_zero, hu] at nd
  have t0 := sg.t 0 (by omega)
  have a0 := sg.al 0 (by omega)
  have b0 := sg.be 0 (by omega)
  have aa := sg.a 0 (by omega)
  have E0 := sg.E 0 (by omega)
  have T : 0 < t 0 + be 0 * r := by positivity
  have E1 : 0 ≤ E 0 * -ku := mul_nonneg E0 (by linarith)
  have D : 0 < (t 0 + be 0 * r) * (1 + E 0 * -ku) + al 0 * -ku := by
    have := mul_nonneg a0.le (by linarith : 0 ≤ -ku)
    positivity
  have h1 : ((t 0 + be 0 * r) * (1 + E 0 * -ku) + al 0 * -ku) * pu = -((-a 0 + (t 0 + be 0 * r)) * e 0) := by
    linear_combination lk - (t 0 + be 0 * r) * nd
  have h2 : ((t 0 + be 0 * r) * (1 + E 0 * -ku) + al 0 * -ku) * p 0 = e 0 * (a 0 - A0 * ku) := by
    rw [hal]; rw [hal] at lk
    linear_combination (1 - E 0 * ku) * lk - (A0 - a 0 * E 0) * ku * nd
  have pu0 : pu ≤ 0 := by
    have : ((t 0 + be 0 * r) * (1 + E 0 * -ku) + al 0 * -ku) * pu ≤ 0 := by
      rw [h1]; exact neg_nonpos.mpr (mul_nonneg (by linarith) e0)
    exact nonpos_of_mul_nonpos_right this D
  refine ⟨fun h => ?_, fun h => ⟨pu0, ?_⟩⟩
  · have p0 : 0 ≤ p 0 := by rw [← h2] at h; exact nonneg_of_mul_nonneg_right h D
    refine ⟨fun i hi => ?_, pu0, by rw [hs]; positivity⟩
    rcases Nat.eq_zero_or_pos i with h | h
    · rw [h, hu]; exact mul_nonneg_of_nonpos_of_nonpos ku0 pu0
    · obtain ⟨s', s0', hs'⟩ := hall i h hi
      rw [q1] at hs'; rw [hs']; positivity
  · have p0 : p 0 < 0 := by rw [← h2] at h; exact neg_of_mul_neg_right h D.le
    rw [hs]; exact mul_neg_of_pos_of_neg s0 p0

/-- Inflow into the last junction. -/
theorem source_last (hn : 1 ≤ n) (sg : ChangeSigns n t al be a c E) (ch : Change n t al be a c E e p d pu pd)
    (ku0 : ku ≤ 0) (kd0 : 0 ≤ kd) (hu : d 0 = ku * pu) (hd : d n = kd * pd) (he : ∀ i, i < n → e i = 0)
    (e0 : 0 ≤ e n) {An : K} (hbe : be (n - 1) = An - c (n - 1) * E n) (h : 0 ≤ c (n - 1) + An * kd) :
    (∀ i, i ≤ n → 0 ≤ d i) ∧ pu ≤ 0 ∧ 0 ≤ pd := by
  obtain ⟨j, rfl⟩ : ∃ j, n = j + 1 := ⟨n - 1, by omega⟩
  rw [Nat.add_sub_cancel] at hbe h
  obtain ⟨r, r0, -, hr, hall, s, s0, hs⟩ := follow_up sg ch ku0 hu j (by omega) (fun i hi => he i (by omega))
  have q1 : qOut (j + 1) p pd j = p j := qOut_lt _ _ (by omega)
  rw [q1] at hr hs
  have lk := ch.link j (by omega)
  have nd := ch.node (j + 1) le_rfl
  rw [he j (by omega), hr, hd] at lk
  rw [qOut_end, qIn_succ, hd] at nd
  have t0 := sg.t j (by omega)
  have a0 := sg.al j (by omega)
  have b0 := sg.be j (by omega)
  have cc := sg.c j (by omega)
  have E0 := sg.E (j + 1) le_rfl
  have T : 0 < t j + al j * r := by positivity
  have D : 0 < (t j + al j * r) * (1 + E (j + 1) * kd) + be j * kd := by positivity
  have h1 : ((t j + al j * r) * (1 + E (j + 1) * kd) + be j * kd) * pd = (-c j + (t j + al j * r)) * e (j + 1) := by
    linear_combination lk + (t j + al j * r) * nd
  have h2 : ((t j + al j * r) * (1 + E (j + 1) * kd) + be j * kd) * p j = -(e (j + 1) * (c j + An * kd)) := by
    rw [hbe]; rw [hbe] at lk
    linear_combination (1 + E (j + 1) * kd) * lk - (An - c j * E (j + 1)) * kd * nd
  have pd0 : 0 ≤ pd := by
    have : 0 ≤ ((t j + al j * r) * (1 + E (j + 1) * kd) + be j * kd) * pd := by
      rw [h1]; exact mul_nonneg (by linarith) e0
    exact nonneg_of_mul_nonneg_right this D
  have p0 : p j ≤ 0 := by
    have : ((t j + al j * r) * (1 + E (j + 1) * kd) + be j * kd) * p j ≤ 0 := by
      rw [h2]; exact neg_nonpos.mpr (mul_nonneg e0 h)
    exact nonpos_of_mul_nonpos_right this D
  refine ⟨fun i hi => ?_, by rw [hs]; exact mul_nonpos_of_nonneg_of_nonpos s0.le p0, pd0⟩
  rcases Nat.le_succ_iff.mp hi with h | h
  · obtain ⟨s', s0', hs'⟩ := hall i h
    rw [q1] at hs'; rw [hs']
    exact mul_nonneg_of_nonpos_of_nonpos (by linarith) p0
  · rw [h]; show 0 ≤ d (j + 1); rw [hd]; positivity

/-- Inflow into an inner junction, the water there not moving backwards. -/
theorem source_inner_down {j : ℕ} (hj : j + 1 < n) (sg : ChangeSigns n t al be a c E) (ch : Change n t al be a c E e p d pu pd)
    (ku0 : ku ≤ 0) (kd0 : 0 ≤ kd) (hu : d 0 = ku * pu) (hd : d n = kd * pd) (he : ∀ i, i ≤ n → i ≠ j + 1 → e i = 0)
    (e0 : 0 ≤ e (j + 1)) {A0 A1 : K} (hbe : be j = A0) (hal : al (j + 1) = A1 - a (j + 1) * E (j + 1))
    (c0 : c j = 0) (h : -a (j + 1) * A0 ≤ A1 * t j) :
    (∀ i, i ≤ n → 0 ≤ d i) ∧ pu ≤ 0 ∧ 0 ≤ pd := by
  obtain ⟨r, r0, -, hr, hall, s, s0, hs⟩ := follow_up sg ch ku0 hu j (by omega) (fun i hi => he i (by omega) (by omega))
  obtain ⟨r', r0', -, hr', hall', s', s0', hs'⟩ := follow_down sg ch kd0 hd (n - (j + 2)) (j + 2) (by omega)
    (fun i h1 h2 => he i h2 (by omega))
  have q1 : qOut n p pd j = p j := qOut_lt _ _ (by omega)
  have q2 : qIn p pu (j + 2) = p (j + 1) := qIn_succ _ _ _
  rw [q1] at hr hs
  rw [q2] at hr' hs'
  have l1 := ch.link j (by omega)
  have l2 := ch.link (j + 1) hj
  have nd := ch.node (j + 1) hj.le
  rw [he j (by omega) (by omega), hr, c0] at l1
  have hr'' : d (j + 1 + 1) = r' * p (j + 1) := hr'
  rw [he (j + 1 + 1) (by omega) (by omega), hr''] at l2
  rw [qOut_lt _ _ hj, qIn_succ] at nd
  have t0 := sg.t j (by omega)
  have t1 := sg.t (j + 1) hj
  have a0 := sg.al j (by omega)
  have a1 := sg.al (j + 1) hj
  have aa := sg.a (j + 1) hj
  have b0 := sg.be j (by omega)
  have b1 := sg.be (j + 1) hj
  have E1 := sg.E (j + 1) hj.le
  have T : 0 < t j + al j * r := by positivity
  obtain ⟨k, k0, hk, kt⟩ : ∃ k, 0 < k ∧ p j = -k * d (j + 1) ∧ k * t j ≤ A0 := by
    refine ⟨be j / (t j + al j * r), by positivity, ?_, ?_⟩
    · field_simp; linear_combination l1
    · rw [div_mul_eq_mul_div, div_le_iff₀ T, ← hbe]
      have : 0 ≤ be j * (al j * r) := by positivity
      linarith
  have T1 : 0 < t (j + 1) + be (j + 1) * r' := by positivity
  have ak : 0 ≤ A1 + a (j + 1) * k := by
    have h3 : -a (j + 1) * (k * t j) ≤ -a (j + 1) * A0 := mul_le_mul_of_nonneg_left kt (by linarith)
    have h4 : 0 ≤ (A1 + a (j + 1) * k) * t j := by linarith
    exact nonneg_of_mul_nonneg_left h4 t0
  have D : 0 < (t (j + 1) + be (j + 1) * r') * (E (j + 1) + k) + al (j + 1) := by positivity
  have h2 : ((t (j + 1) + be (j + 1) * r') * (E (j + 1) + k) + al (j + 1)) * p (j + 1) = e (j + 1) * (A1 + a (j + 1) * k) := by
    rw [hal]; rw [hal] at l2
    linear_combination (E (j + 1) + k) * l2 + (A1 - a (j + 1) * E (j + 1)) * (nd + hk)
  have p1 : 0 ≤ p (j + 1) := by
    have : 0 ≤ ((t (j + 1) + be (j + 1) * r') * (E (j + 1) + k) + al (j + 1)) * p (j + 1) := by
      rw [h2]; exact mul_nonneg e0 ak
    exact nonneg_of_mul_nonneg_right this D
  have d1 : 0 ≤ d (j + 1) := by
    have : 0 ≤ al (j + 1) * d (j + 1) := by
      have h3 := mul_nonneg T1.le p1
      have h4 := mul_nonneg (by linarith : 0 ≤ -a (j + 1)) e0
      linarith
    exact nonneg_of_mul_nonneg_right this a1
  have p0 : p j ≤ 0 := by rw [hk]; exact mul_nonpos_of_nonpos_of_nonneg (by linarith) d1
  refine ⟨fun i hi => ?_, by rw [hs]; exact mul_nonpos_of_nonneg_of_nonpos s0.le p0, by rw [hs']; positivity⟩
  rcases lt_trichotomy i (j + 1) with h | h | h
  · obtain ⟨q, q0, hq⟩ := hall i (by omega)
    rw [hq, q1]
    exact mul_nonneg_of_nonpos_of_nonpos (by linarith) p0
  · rw [h]; exact d1
  · obtain ⟨q, q0, hq⟩ := hall' i h hi
    rw [hq, q2]; positivity

/-- Inflow into an inner junction, the water there not moving forwards. -/
theorem source_inner_up {j : ℕ} (hj : j + 1 < n) (sg : ChangeSigns n t al be a c E) (ch : Change n t al be a c E e p d pu pd)
    (ku0 : ku ≤ 0) (kd0 : 0 ≤ kd) (hu : d 0 = ku * pu) (hd : d n = kd * pd) (he : ∀ i, i ≤ n → i ≠ j + 1 → e i = 0)
    (e0 : 0 ≤ e (j + 1)) {A0 A1 : K} (hal : al (j + 1) = A1) (hbe : be j = A0 - c j * E (j + 1))
    (c0 : a (j + 1) = 0) (h : -c j * A1 ≤ A0 * t (j + 1)) :
    (∀ i, i ≤ n → 0 ≤ d i) ∧ pu ≤ 0 ∧ 0 ≤ pd := by
  obtain ⟨r, r0, -, hr, hall, s, s0, hs⟩ := follow_up sg ch ku0 hu j (by omega) (fun i hi => he i (by omega) (by omega))
  obtain ⟨r', r0', -, hr', hall', s', s0', hs'⟩ := follow_down sg ch kd0 hd (n - (j + 2)) (j + 2) (by omega)
    (fun i h1 h2 => he i h2 (by omega))
  have q1 : qOut n p pd j = p j := qOut_lt _ _ (by omega)
  have q2 : qIn p pu (j + 2) = p (j + 1) := qIn_succ _ _ _
  rw [q1] at hr hs
  rw [q2] at hr' hs'
  have l1 := ch.link j (by omega)
  have l2 := ch.link (j + 1) hj
  have nd := ch.node (j + 1) hj.le
  rw [he j (by omega) (by omega), hr] at l1
  have hr'' : d (j + 1 + 1) = r' * p (j + 1) := hr'
  rw [he (j + 1 + 1) (by omega) (by omega), hr'', c0] at l2
  rw [qOut_lt _ _ hj, qIn_succ] at nd
  have t0 := sg.t j (by omega)
  have t1 := sg.t (j + 1) hj
  have a0 := sg.al j (by omega)
  have a1 := sg.al (j + 1) hj
  have cc := sg.c j (by omega)
  have b0 := sg.be j (by omega)
  have b1 := sg.be (j + 1) hj
  have E1 := sg.E (j + 1) hj.le
  have T : 0 < t j + al j * r := by positivity
  have T1 : 0 < t (j + 1) + be (j + 1) * r' := by positivity
  obtain ⟨k, k0, hk, kt⟩ : ∃ k, 0 < k ∧ p (j + 1) = k * d (j + 1) ∧ k * t (j + 1) ≤ A1 := by
    refine ⟨al (j + 1) / (t (j + 1) + be (j + 1) * r'), by positivity, ?_, ?_⟩
    · field_simp; linear_combination l2
    · rw [div_mul_eq_mul_div, div_le_iff₀ T1, ← hal]
      have : 0 ≤ al (j + 1) * (be (j + 1) * r') := by positivity
      linarith
  have ak : 0 ≤ A0 + c j * k := by
    have h3 : -c j * (k * t (j + 1)) ≤ -c j * A1 := mul_le_mul_of_nonneg_left kt (by linarith)
    have h4 : 0 ≤ (A0 + c j * k) * t (j + 1) := by linarith
    exact nonneg_of_mul_nonneg_left h4 t1
  have D : 0 < (t j + al j * r) * (E (j + 1) + k) + be j := by positivity
  have h2 : ((t j + al j * r) * (E (j + 1) + k) + be j) * p j = -(e (j + 1) * (A0 + c j * k)) := by
    rw [hbe]; rw [hbe] at l1
    linear_combination (E (j + 1) + k) * l1 - (A0 - c j * E (j + 1)) * (nd - hk)
  have p0 : p j ≤ 0 := by
    have : ((t j + al j * r) * (E (j + 1) + k) + be j) * p j ≤ 0 := by
      rw [h2]; exact neg_nonpos.mpr (mul_nonneg e0 ak)
    exact nonpos_of_mul_nonpos_right this D
  have d1 : 0 ≤ d (j + 1) := by
    have : 0 ≤ be j * d (j + 1) := by
      have h3 := mul_nonneg T.le (neg_nonneg.mpr p0)
      have h4 := mul_nonneg (by linarith : 0 ≤ -c j) e0
      linarith
    exact nonneg_of_mul_nonneg_right this b0
  have p1 : 0 ≤ p (j + 1) := by rw [hk]; positivity
  refine ⟨fun i hi => ?_, by rw [hs]; exact mul_nonpos_of_nonneg_of_nonpos s0.le p0, by rw [hs']; positivity⟩
  rcases lt_trichotomy i (j + 1) with h | h | h
  · obtain ⟨q, q0, hq⟩ := hall i (by omega)
    rw [hq, q1]
    exact mul_nonneg_of_nonpos_of_nonpos (by linarith) p0
  · rw [h]; exact d1
  · obtain ⟨q, q0, hq⟩ := hall' i h hi
    rw [hq, q2]; positivity

/-- A higher head at one end raises all depths. -/
theorem heads_up (hn : 1 ≤ n) (sg : ChangeSigns n t al be a c E) (ch : Change n t al be a c E e p d pu pd)
    (ku0 : ku ≤ 0) (kd0 : 0 ≤ kd) {x : K} (x0 : 0 ≤ x) (he : ∀ i, i ≤ n → e i = 0) :
    (d 0 = ku * pu + x → d n = kd * pd → ∀ i, i ≤ n → 0 ≤ d i) ∧
    (d 0 = ku * pu → d n = kd * pd + x → ∀ i, i ≤ n → 0 ≤ d i) := by
  refine ⟨fun hu hd i hi => ?_, fun hu hd i hi => ?_⟩
  · obtain ⟨r, -, rp, hr, hall, -⟩ := follow_down sg ch kd0 hd n 0 (by omega) (fun i _ h => he i h)
    rw [qIn_zero] at hr
    have r0 := rp (by omega)
    have p0 : 0 ≤ pu := by
      have : 0 ≤ (r - ku) * pu := by
        have : (r - ku) * pu = x := by linear_combination hu - hr
        rw [this]; exact x0
      exact nonneg_of_mul_nonneg_right this (by linarith)
    obtain ⟨s, s0, hs⟩ := hall i (Nat.zero_le _) hi
    rw [hs, qIn_zero]; positivity
  · obtain ⟨r, -, rp, hr, hall, -⟩ := follow_up sg ch ku0 hu n le_rfl he
    rw [qOut_end] at hr
    have r0 := rp (by omega)
    have p0 : pd ≤ 0 := by
      have : (r + kd) * pd ≤ 0 := by
        have : (r + kd) * pd = -x := by linear_combination hr - hd
        rw [this]; linarith
      exact nonpos_of_mul_nonpos_right this (by linarith)
    obtain ⟨s, s0, hs⟩ := hall i hi
    rw [hs, qOut_end]
    exact mul_nonneg_of_nonpos_of_nonpos (by linarith) p0

/-- The differences of two solutions with equal coefficients up to the lateral inflows. -/
theorem change_of {g : K} {co co' : Coef K} {Q h Q' h' : ℕ → K} {Qu Qd Qu' Qd' : K}
    (ea : ∀ i, i < n → co'.a i = co.a i) (eb : ∀ i, i < n → co'.b i = co.b i) (ec : ∀ i, i < n → co'.c i = co.c i)
    (eP : ∀ i, i < n → co'.P i = co.P i) (eA : ∀ i, i < n → co'.A i = co.A i) (eE : ∀ i, i ≤ n → co'.E i = co.E i)
    (S : SaintVenant g co n Q h Qu Qd) (S' : SaintVenant g co' n Q' h' Qu' Qd') :
    Change n (fun i => co.a i + co.b i + co.c i) (fun i => g * co.A i - co.a i * co.E i)
      (fun i => g * co.A i - co.c i * co.E (i + 1)) co.a co.c co.E (fun i => co'.D i - co.D i) (fun i => Q' i - Q i)
      (fun i => h' i - h i) (Qu' - Qu) (Qd' - Qd) := by
  have qi : ∀ j, qIn (fun i => Q' i - Q i) (Qu' - Qu) j = qIn Q' Qu' j - qIn Q Qu j := by
    intro j; unfold qIn; split_ifs <;> rfl
  have qo : ∀ j, qOut n (fun i => Q' i - Q i) (Qd' - Qd) j = qOut n Q' Qd' j - qOut n Q Qd j := by
    intro j; unfold qOut; split_ifs <;> rfl
  have nd : ∀ i, i ≤ n → qOut n (fun i => Q' i - Q i) (Qd' - Qd) i - qIn (fun i => Q' i - Q i) (Qu' - Qu) i
      + co.E i * (h' i - h i) = co'.D i - co.D i := by
    intro i hi
    have h1 := S.continuity i hi
    have h2 := S'.continuity i hi
    rw [eE i hi] at h2
    rw [qi, qo]
    linear_combination h2 - h1
  refine ⟨fun i hi => ?_, nd⟩
  have h1 := S.momentum i hi
  have h2 := S'.momentum i hi
  rw [ea i hi, eb i hi, ec i hi, eP i hi, eA i hi] at h2
  have n1 := nd i hi.le
  have n2 := nd (i + 1) hi
  rw [qi, qo, qOut_lt _ _ hi, qOut_lt _ _ hi] at n1
  rw [qi, qo, qIn_succ, qIn_succ] at n2
  linear_combination h2 - h1 + co.a i * n1 - co.c i * n2

theorem change_signs {g : K} {co : Coef K} (ph : Physical g co n) :
    ChangeSigns n (fun i => co.a i + co.b i + co.c i) (fun i => g * co.A i - co.a i * co.E i)
      (fun i => g * co.A i - co.c i * co.E (i + 1)) co.a co.c co.E := by
  refine ⟨ph.abc_pos, fun i hi => ?_, fun i hi => ?_, ph.a_nonpos, ph.c_nonpos, ph.E_nonneg⟩
  · have := mul_pos ph.g_pos (ph.A_pos i hi)
    have := mul_nonneg (neg_nonneg.mpr (ph.a_nonpos i hi)) (ph.E_nonneg i hi.le)
    show 0 < _
    linarith
  · have := mul_pos ph.g_pos (ph.A_pos i hi)
    have := mul_nonneg (neg_nonneg.mpr (ph.c_nonpos i hi)) (ph.E_nonneg (i + 1) hi)
    show 0 < _
    linarith

end

/-! ### A step -/

noncomputable section
variable {m : Model} {geo : Geo} {inp : Inputs} {wk : Work} {s : Hyd} {co co' : Coef ℝ} {x x' q : ℕ → ℝ}

/-- The water at junction `j` of superlink `k` takes up an inflow without being held back: at an end the entrance or exit loss
exceeds the momentum carried by the flow; inside, the water moves one way and passes less than the link it comes from
in one step (weighted with the areas on both sides). Still water satisfies this. -/
structure Gentle (m : Model) (geo : Geo) (inp : Inputs) (s : Hyd) (k j : ℕ) : Prop where
  first : j = 0 → max (velocityUp m geo s k 0) 0 * geo.sigma (m.ix.i_1k k)
    ≤ -(m.g * geo.A (m.ix.i_1k k) * (m.headCoef geo s k).kappa_u)
  last : j = m.ix.nk k → max (-velocityDown m geo s k (j - 1)) 0 * geo.sigma (m.ix.i_1k k + (j - 1))
    ≤ m.g * geo.A (m.ix.i_1k k + (j - 1)) * (m.headCoef geo s k).kappa_d
  inner : 0 < j → j < m.ix.nk k →
    (0 ≤ velocityDown m geo s k (j - 1) ∧
      max (velocityUp m geo s k j) 0 * geo.sigma (m.ix.i_1k k + j) * geo.A (m.ix.i_1k k + (j - 1))
        ≤ geo.A (m.ix.i_1k k + j) * (m.dx (m.ix.i_1k k + (j - 1)) / inp.dt * geo.sigma (m.ix.i_1k k + (j - 1)))) ∨
    (velocityUp m geo s k j ≤ 0 ∧
      max (-velocityDown m geo s k (j - 1)) 0 * geo.sigma (m.ix.i_1k k + (j - 1)) * geo.A (m.ix.i_1k k + j)
        ≤ geo.A (m.ix.i_1k k + (j - 1)) * (m.dx (m.ix.i_1k k + j) / inp.dt * geo.sigma (m.ix.i_1k k + j)))

theorem coef_lower (c : m.Consistent) (ps : PhysicalStep m geo inp)
    (hc : StepCoefs m.g m.N (m.linkIn geo inp s s) (m.nodeIn geo inp s) m.nix co) {k j : ℕ} (hk : k < m.ix.NK)
    (hj : j < m.ix.nk k) :
    m.dx (m.ix.i_1k k + j) / inp.dt * geo.sigma (m.ix.i_1k k + j)
      ≤ co.a (m.ix.i_1k k + j) + co.b (m.ix.i_1k k + j) + co.c (m.ix.i_1k k + j) := by
  have hN := c.inN k hk
  have g0 := ps.g_pos
  have dp := ps.dx_pos (m.ix.i_1k k + j) (by omega)
  have Ap := ps.A_pos (m.ix.i_1k k + j) (by omega)
  obtain ⟨ha, hbb, hcc, -, -⟩ := hc.1 (m.ix.i_1k k + j) (by omega)
  simp only [LinkIn.b, bIk] at hbb
  cases hf : frictionSlope ((m.linkIn geo inp s s).Qnext (m.ix.i_1k k + j))
      ((m.linkIn geo inp s s).dx (m.ix.i_1k k + j)) ((m.linkIn geo inp s s).A (m.ix.i_1k k + j))
      ((m.linkIn geo inp s s).R (m.ix.i_1k k + j)) ((m.linkIn geo inp s s).n (m.ix.i_1k k + j))
      ((m.linkIn geo inp s s).method (m.ix.i_1k k + j)) m.g with
  | error e => rw [hf] at hbb; simp [bind, Except.bind] at hbb
  | ok t =>
    have ht := C17_friction_nonneg dp.le (ps.R_pos _ (by omega)) (ps.n_pos _ (by omega)) g0 hf
    rw [hf] at hbb
    simp only [bind, Except.bind, pure, Except.pure] at hbb
    injection hbb with hbb
    rw [← hbb, ha, hcc]
    have : 0 ≤ (if (m.linkIn geo inp s s).ctrl (m.ix.i_1k k + j) = true then
        (m.linkIn geo inp s s).C (m.ix.i_1k k + j) * (m.linkIn geo inp s s).A (m.ix.i_1k k + j)
          * |(m.linkIn geo inp s s).Qnext (m.ix.i_1k k + j)| / (m.linkIn geo inp s s).A_c (m.ix.i_1k k + j) ^ 2
        else 0) := by
      have h1 := ps.C_nonneg (m.ix.i_1k k + j) (by omega)
      split_ifs
      · exact div_nonneg (mul_nonneg (mul_nonneg h1 Ap.le) (abs_nonneg _)) (sq_nonneg _)
      · exact le_rfl
    have e : (m.linkIn geo inp s s).dx (m.ix.i_1k k + j) / (m.linkIn geo inp s s).dt
        * (m.linkIn geo inp s s).sigma (m.ix.i_1k k + j)
        = m.dx (m.ix.i_1k k + j) / inp.dt * geo.sigma (m.ix.i_1k k + j) := rfl
    linarith

theorem coef_adv (c : m.Consistent) (st : StartTables m) (ps : PhysicalStep m geo inp)
    (hc : StepCoefs m.g m.N (m.linkIn geo inp s s) (m.nodeIn geo inp s) m.nix co) {k j : ℕ} (hk : k < m.ix.NK)
    (hj : j < m.ix.nk k) :
    co.a (m.ix.i_1k k + j) = -(max (velocityUp m geo s k j) 0) * geo.sigma (m.ix.i_1k k + j) ∧
    co.c (m.ix.i_1k k + j) = -(max (-velocityDown m geo s k j) 0) * geo.sigma (m.ix.i_1k k + j) ∧
    co.A (m.ix.i_1k k + j) = geo.A (m.ix.i_1k k + j) := by
  have hN := c.inN k hk
  obtain ⟨ha, -, hcc, -, hA⟩ := hc.1 (m.ix.i_1k k + j) (by omega)
  refine ⟨?_, ?_, hA⟩
  · rw [ha]; simp only [LinkIn.a, Model.linkIn, aIk]; rw [velocityUp_eq c ps st hk hj]
  · rw [hcc]; simp only [LinkIn.c, Model.linkIn, cIk]; rw [velocityDown_eq c ps st hk hj]

/-- Coefficients of two steps from one state which differ in the lateral inflows only. -/
theorem lateral_coefs (c : m.Consistent)
    (hc : StepCoefs m.g m.N (m.linkIn geo inp s s) (m.nodeIn geo inp s) m.nix co)
    (hc' : StepCoefs m.g m.N (m.linkIn geo { inp with Q_0Ik := q } s s) (m.nodeIn geo { inp with Q_0Ik := q } s) m.nix co')
    {k : ℕ} (hk : k < m.ix.NK) :
    (∀ i, i < m.ix.nk k → co'.a (m.ix.i_1k k + i) = co.a (m.ix.i_1k k + i) ∧ co'.b (m.ix.i_1k k + i) = co.b (m.ix.i_1k k + i) ∧
      co'.c (m.ix.i_1k k + i) = co.c (m.ix.i_1k k + i) ∧ co'.P (m.ix.i_1k k + i) = co.P (m.ix.i_1k k + i) ∧
      co'.A (m.ix.i_1k k + i) = co.A (m.ix.i_1k k + i)) ∧
    ∀ i, i ≤ m.ix.nk k → co'.E (m.ix.I_1k k + i) = co.E (m.ix.I_1k k + i) ∧
      co'.D (m.ix.I_1k k + i) - co.D (m.ix.I_1k k + i) = q (m.ix.I_1k k + i) - inp.Q_0Ik (m.ix.I_1k k + i) := by
  have hN := c.inN k hk
  refine ⟨fun i hi => ?_, fun i hi => ?_⟩
  · obtain ⟨a1, b1, c1, P1, A1⟩ := hc.1 (m.ix.i_1k k + i) (by omega)
    obtain ⟨a2, b2, c2, P2, A2⟩ := hc'.1 (m.ix.i_1k k + i) (by omega)
    refine ⟨a2.trans a1.symm, ?_, c2.trans c1.symm, P2.trans P1.symm, A2.trans A1.symm⟩
    have : (Except.ok (co'.b (m.ix.i_1k k + i)) : Except PyErr ℝ) = .ok (co.b (m.ix.i_1k k + i)) := b2.symm.trans b1
    injection this
  · have n1 := node_coeffs_eq (y := m.nodeIn geo inp s) (c.layout.pos k hk) (c.nodes k hk) hi
    have n2 := node_coeffs_eq (y := m.nodeIn geo { inp with Q_0Ik := q } s) (c.layout.pos k hk) (c.nodes k hk) hi
    rw [hc.2.1, hc'.2.1, hc.2.2, hc'.2.2, n1.1, n2.1, n1.2, n2.2]
    have e : junctionArea (m.nodeIn geo { inp with Q_0Ik := q } s) (m.ix.nk k) (m.ix.I_1k k) (m.ix.i_1k k) k i
        = junctionArea (m.nodeIn geo inp s) (m.ix.nk k) (m.ix.I_1k k) (m.ix.i_1k k) k i := rfl
    refine ⟨by rw [e]; rfl, ?_⟩
    rw [e]
    simp only [Model.nodeIn]
    ring

/-- More inflow into one junction, at unchanged heads. -/
theorem junction_up (c : m.Consistent) (st : StartTables m) (ps : PhysicalStep m geo inp)
    (hc : StepCoefs m.g m.N (m.linkIn geo inp s s) (m.nodeIn geo inp s) m.nix co)
    (hc' : StepCoefs m.g m.N (m.linkIn geo { inp with Q_0Ik := q } s s) (m.nodeIn geo { inp with Q_0Ik := q } s) m.nix co')
    {k J : ℕ} (hk : k < m.ix.NK) (hJ : J ≤ m.ix.nk k)
    (same : ∀ j, j ≤ m.ix.nk k → j ≠ J → q (m.ix.I_1k k + j) = inp.Q_0Ik (m.ix.I_1k k + j))
    (more : inp.Q_0Ik (m.ix.I_1k k + J) ≤ q (m.ix.I_1k k + J))
    (hg : inp.Q_0Ik (m.ix.I_1k k + J) < q (m.ix.I_1k k + J) → Gentle m geo inp s k J)
    {Q h Q' h' : ℕ → ℝ} {Qu Qd Qu' Qd' : ℝ}
    (S : SaintVenant m.g (co.slice (m.ix.i_1k k) (m.ix.I_1k k)) (m.ix.nk k) Q h Qu Qd)
    (S' : SaintVenant m.g (co'.slice (m.ix.i_1k k) (m.ix.I_1k k)) (m.ix.nk k) Q' h' Qu' Qd')
    (e0 : h' 0 - h 0 = (m.headCoef geo s k).kappa_u * (Qu' - Qu))
    (en : h' (m.ix.nk k) - h (m.ix.nk k) = (m.headCoef geo s k).kappa_d * (Qd' - Qd)) :
    (∀ j, j ≤ m.ix.nk k → h j ≤ h' j) ∧ Qu' ≤ Qu ∧ Qd ≤ Qd' := by
  have n1 := c.layout.pos k hk
  have ph := physical c ps hc hk
  have hs := step_headSigns (cur := s) ps hk
  obtain ⟨L, Nn⟩ := lateral_coefs c hc hc' hk
  have ch := change_of (fun i hi => (L i hi).1) (fun i hi => (L i hi).2.1) (fun i hi => (L i hi).2.2.1)
    (fun i hi => (L i hi).2.2.2.1) (fun i hi => (L i hi).2.2.2.2) (fun i hi => (Nn i hi).1) S S'
  have sg := change_signs ph
  have eD : ∀ i, i ≤ m.ix.nk k → (co'.slice (m.ix.i_1k k) (m.ix.I_1k k)).D i - (co.slice (m.ix.i_1k k) (m.ix.I_1k k)).D i
      = q (m.ix.I_1k k + i) - inp.Q_0Ik (m.ix.I_1k k + i) := fun i hi => (Nn i hi).2
  have eO : ∀ i, i ≤ m.ix.nk k → i ≠ J →
      (co'.slice (m.ix.i_1k k) (m.ix.I_1k k)).D i - (co.slice (m.ix.i_1k k) (m.ix.I_1k k)).D i = 0 := by
    intro i hi hne; rw [eD i hi, same i hi hne, sub_self]
  have eJ : 0 ≤ (co'.slice (m.ix.i_1k k) (m.ix.I_1k k)).D J - (co.slice (m.ix.i_1k k) (m.ix.I_1k k)).D J := by
    rw [eD J hJ]; linarith
  have fin : ((∀ i, i ≤ m.ix.nk k → 0 ≤ h' i - h i) ∧ Qu' - Qu ≤ 0 ∧ 0 ≤ Qd' - Qd) →
      (∀ j, j ≤ m.ix.nk k → h j ≤ h' j) ∧ Qu' ≤ Qu ∧ Qd ≤ Qd' := by
    rintro ⟨h1, h2, h3⟩
    exact ⟨fun j hj => by linarith [h1 j hj], by linarith, by linarith⟩
  apply fin
  rcases eq_or_lt_of_le more with hz | hlt
  · have z : ∀ i, i ≤ m.ix.nk k →
        (co'.slice (m.ix.i_1k k) (m.ix.I_1k k)).D i - (co.slice (m.ix.i_1k k) (m.ix.I_1k k)).D i = 0 := by
      intro i hi
      by_cases h : i = J
      · rw [eD i hi, h, hz, sub_self]
      · exact eO i hi h
    refine (source_first n1 sg ch hs.ku hs.kd e0 en (fun i _ h => z i h) (z 0 (by omega)).ge rfl).1 ?_
    rw [z 0 (by omega), zero_mul]
  · have G := hg hlt
    by_cases j0 : J = 0
    · obtain rfl := j0
      refine (source_first n1 sg ch hs.ku hs.kd e0 en (fun i h1 h => eO i h (by omega)) eJ rfl).1 (mul_nonneg eJ ?_)
      have g0 := G.first rfl
      obtain ⟨a1, -, A1⟩ := coef_adv c st ps hc hk (j := 0) (by omega)
      simp only [Coef.slice, a1, A1]
      rw [add_zero]; linarith
    · by_cases jn : J = m.ix.nk k
      · obtain rfl := jn
        have en1 : m.ix.nk k - 1 + 1 = m.ix.nk k := by omega
        refine source_last n1 sg ch hs.ku hs.kd e0 en (fun i h => eO i h.le (by omega)) eJ (by rw [en1]) ?_
        have g0 := G.last rfl
        obtain ⟨-, c1, A1⟩ := coef_adv c st ps hc hk (j := m.ix.nk k - 1) (by omega)
        simp only [Coef.slice, c1, A1]
        linarith
      · obtain ⟨j, rfl⟩ : ∃ j, J = j + 1 := ⟨J - 1, by omega⟩
        obtain ⟨a1, c1, A1⟩ := coef_adv c st ps hc hk (j := j) (by omega)
        obtain ⟨a2, c2, A2⟩ := coef_adv c st ps hc hk (j := j + 1) (by omega)
        have l1 := coef_lower c ps hc hk (j := j) (by omega)
        have l2 := coef_lower c ps hc hk (j := j + 1) (by omega)
        have hN := c.inN k hk
        have g0 := ps.g_pos
        have p1 := ps.A_pos (m.ix.i_1k k + j) (by omega)
        have p2 := ps.A_pos (m.ix.i_1k k + (j + 1)) (by omega)
        have gi := G.inner (by omega) (by omega)
        rw [Nat.add_sub_cancel] at gi
        rcases gi with ⟨v, w⟩ | ⟨v, w⟩
        · have c0 : co.c (m.ix.i_1k k + j) = 0 := by rw [c1, max_eq_right (by linarith), neg_zero, zero_mul]
          refine source_inner_down (j := j) (by omega) sg ch hs.ku hs.kd e0 en eO eJ rfl rfl c0 ?_
          have := mul_le_mul_of_nonneg_left l1 (mul_pos g0 p2).le
          simp only [Coef.slice, A1, A2, c0, a2] at this ⊢
          rw [zero_mul, sub_zero]
          nlinarith [mul_le_mul_of_nonneg_left w g0.le]
        · have c0 : co.a (m.ix.i_1k k + (j + 1)) = 0 := by rw [a2, max_eq_right v, neg_zero, zero_mul]
          refine source_inner_up (j := j) (by omega) sg ch hs.ku hs.kd e0 en eO eJ rfl rfl c0 ?_
          have := mul_le_mul_of_nonneg_left l2 (mul_pos g0 p1).le
          simp only [Coef.slice, A1, A2, c0, c1] at this ⊢
          rw [zero_mul, sub_zero]
          nlinarith [mul_le_mul_of_nonneg_left w g0.le]

theorem lateral_physical (ps : PhysicalStep m geo inp) (q : ℕ → ℝ) : PhysicalStep m geo { inp with Q_0Ik := q } :=
  ⟨ps.g_pos, ps.dt_pos, ps.A_pos, ps.R_pos, ps.B_nonneg, ps.sigma_pos, ps.n_pos, ps.dx_pos, ps.C_nonneg, ps.AS_nonneg, ps.Bu,
    ps.Bd, ps.dxu, ps.dxd, ps.Cu, ps.Cd, ps.As, ps.u_p, ps.b_p⟩

/-- The equations of superlink `k` hold, with the end flows and end depths the step gives for the heads `Hu`, `Hd`. -/
structure SolvesAt (m : Model) (geo : Geo) (wk : Work) (s : Hyd) (co : Coef ℝ) (k : ℕ) (Hu Hd : ℝ) (Q h : ℕ → ℝ) : Prop where
  eqs : SaintVenant m.g (co.slice (m.ix.i_1k k) (m.ix.I_1k k)) (m.ix.nk k) Q h
    (Quk (m.endRec wk co k) (m.headCoef geo s k) Hu Hd) (Qdk (m.endRec wk co k) (m.headCoef geo s k) Hu Hd)
  first : h 0 = huk (m.endRec wk co k) (m.headCoef geo s k) Hu Hd
  last : h (m.ix.nk k) = hdk (m.endRec wk co k) (m.headCoef geo s k) Hu Hd

/-- The coefficients exist for other lateral inflows too. -/
theorem lateral_exists (hc : StepCoefs m.g m.N (m.linkIn geo inp s s) (m.nodeIn geo inp s) m.nix co) (q : ℕ → ℝ) :
    ∃ co', StepCoefs m.g m.N (m.linkIn geo { inp with Q_0Ik := q } s s) (m.nodeIn geo { inp with Q_0Ik := q } s) m.nix co' :=
  ⟨{ co with D := nodeD (m.nodeIn geo { inp with Q_0Ik := q } s) m.nix }, hc.1, hc.2.1, fun _ => rfl⟩

/-- More inflow into junctions of one superlink, at unchanged heads. -/
theorem superlink_up (c : m.Consistent) (st : StartTables m) (ps : PhysicalStep m geo inp) (he : m.end_method = .b)
    (hc : StepCoefs m.g m.N (m.linkIn geo inp s s) (m.nodeIn geo inp s) m.nix co) {k : ℕ} (hk : k < m.ix.NK)
    (more : ∀ j, j ≤ m.ix.nk k → inp.Q_0Ik (m.ix.I_1k k + j) ≤ q (m.ix.I_1k k + j))
    (hg : ∀ j, j ≤ m.ix.nk k → inp.Q_0Ik (m.ix.I_1k k + j) < q (m.ix.I_1k k + j) → Gentle m geo inp s k j)
    {Hu Hd : ℝ} {Q h : ℕ → ℝ} (S : SolvesAt m geo wk s co k Hu Hd Q h) (t : ℕ) :
    t ≤ m.ix.nk k + 1 → ∀ (q' : ℕ → ℝ) (co' : Coef ℝ) (Q' h' : ℕ → ℝ),
    (∀ j, j ≤ m.ix.nk k →
      q' (m.ix.I_1k k + j) = if j < t then q (m.ix.I_1k k + j) else inp.Q_0Ik (m.ix.I_1k k + j)) →
    StepCoefs m.g m.N (m.linkIn geo { inp with Q_0Ik := q' } s s) (m.nodeIn geo { inp with Q_0Ik := q' } s) m.nix co' →
    SolvesAt m geo wk s co' k Hu Hd Q' h' →
    (∀ j, j ≤ m.ix.nk k → h j ≤ h' j) ∧
      Quk (m.endRec wk co' k) (m.headCoef geo s k) Hu Hd ≤ Quk (m.endRec wk co k) (m.headCoef geo s k) Hu Hd ∧
      Qdk (m.endRec wk co k) (m.headCoef geo s k) Hu Hd ≤ Qdk (m.endRec wk co' k) (m.headCoef geo s k) Hu Hd := by
  induction t with
  | zero =>
    intro _ q' co' Q' h' hq hc' S'
    refine junction_up (J := 0) c st ps hc hc' hk (Nat.zero_le _) (fun j hj _ => ?_) ?_ ?_ S.eqs S'.eqs ?_ ?_
    · rw [hq j hj, if_neg (by omega)]
    · rw [hq 0 (Nat.zero_le _), if_neg (by omega)]
    · rw [hq 0 (Nat.zero_le _), if_neg (by omega)]; exact fun h => absurd h (lt_irrefl _)
    · rw [S.first, S'.first, huk, huk]; ring
    · rw [S.last, S'.last, hdk, hdk]; ring
  | succ t ih =>
    intro ht q' co' Q' h' hq hc' S'
    obtain ⟨cm, hm⟩ := lateral_exists hc fun I => if I < m.ix.I_1k k + t then q I else inp.Q_0Ik I
    obtain ⟨Qm, hm', Sm, f, l⟩ := solution_exists (wk := wk) c (lateral_physical ps _) he hm hk Hu Hd
    obtain ⟨i1, i2, i3⟩ := ih (by omega) _ cm Qm hm' (fun j hj => by
      by_cases h : j < t
      · rw [if_pos h, if_pos (by omega)]
      · rw [if_neg h, if_neg (by omega)]) hm ⟨Sm, f, l⟩
    obtain ⟨j1, j2, j3⟩ := junction_up (J := t) (q := q') c st (lateral_physical ps _) hm hc' hk (by omega)
      (fun j hj hne => by
        show _ = if _ then _ else _
        rw [hq j hj]
        by_cases h : j < t
        · rw [if_pos (by omega), if_pos (by omega)]
        · rw [if_neg (by omega), if_neg (by omega)])
      (by
        show (if _ then _ else _) ≤ _
        rw [hq t (by omega), if_neg (by omega), if_pos (by omega)]
        exact more t (by omega))
      (by
        show (if _ then _ else _) < _ → _
        rw [hq t (by omega), if_neg (by omega), if_pos (by omega)]
        intro h
        have G := hg t (by omega) h
        exact ⟨G.first, G.last, G.inner⟩)
      Sm S'.eqs (by rw [f, S'.first, huk, huk]; ring) (by rw [l, S'.last, hdk, hdk]; ring)
    exact ⟨fun j hj => (i1 j hj).trans (j1 j hj), j2.trans i2, i3.trans j3⟩

/-- The end flows at unchanged heads. -/
theorem superlink_all (c : m.Consistent) (st : StartTables m) (ps : PhysicalStep m geo inp) (he : m.end_method = .b)
    (hc : StepCoefs m.g m.N (m.linkIn geo inp s s) (m.nodeIn geo inp s) m.nix co)
    (hc' : StepCoefs m.g m.N (m.linkIn geo { inp with Q_0Ik := q } s s) (m.nodeIn geo { inp with Q_0Ik := q } s) m.nix co')
    {k : ℕ} (hk : k < m.ix.NK)
    (more : ∀ j, j ≤ m.ix.nk k → inp.Q_0Ik (m.ix.I_1k k + j) ≤ q (m.ix.I_1k k + j))
    (hg : ∀ j, j ≤ m.ix.nk k → inp.Q_0Ik (m.ix.I_1k k + j) < q (m.ix.I_1k k + j) → Gentle m geo inp s k j) (Hu Hd : ℝ) :
    Quk (m.endRec wk co' k) (m.headCoef geo s k) Hu Hd ≤ Quk (m.endRec wk co k) (m.headCoef geo s k) Hu Hd ∧
    Qdk (m.endRec wk co k) (m.headCoef geo s k) Hu Hd ≤ Qdk (m.endRec wk co' k) (m.headCoef geo s k) Hu Hd := by
  obtain ⟨Q, h, S, f, l⟩ := solution_exists (wk := wk) c ps he hc hk Hu Hd
  obtain ⟨Q', h', S', f', l'⟩ := solution_exists (wk := wk) c (lateral_physical ps q) he hc' hk Hu Hd
  exact (superlink_up c st ps he hc hk more hg ⟨S, f, l⟩ (m.ix.nk k + 1) le_rfl q co' Q' h'
    (fun j hj => by rw [if_pos (by omega)]) hc' ⟨S', f', l'⟩).2

/-- What the superlinks bring to superjunction `i` in the step with other lateral inflows beyond what they bring without,
at the heads `H`. -/
def extra (m : Model) (geo : Geo) (inp : Inputs) (wk : Work) (s : Hyd) (co co' : Coef ℝ) (H : ℕ → ℝ) (i : ℕ) : ℝ :=
  (m.net geo inp wk s co').links.inflow H i - (m.net geo inp wk s co).links.inflow H i

/-- The heads of the second step solve the network equations of the first, with the extra flow as external inflow. -/
theorem extra_solves (c : m.Consistent) (cw : CleanWork m wk.mats)
    (p' : Pass m geo { inp with Q_0Ik := q } wk s s co' x') :
    Solves m.M (m.lhs geo inp wk s co) (assembleB (m.net geo inp wk s co) inp.dt s.H
      (fun i => if m.bc i then inp.Q_in i else inp.Q_in i + extra m geo inp wk s co co' x' i) (inp.H_bc.getD s.H)) x' := by
  refine (solves_iff (m.net geo inp wk s co) inp.dt wk.mats cw.mats (wired c) _ _ _ _).2 fun i hi => ?_
  obtain ⟨h1, h2⟩ := (solves_iff (m.net geo { inp with Q_0Ik := q } wk s co') inp.dt wk.mats cw.mats (wired c) _ _ _ _).1
    p'.solve i hi
  refine ⟨h1, fun hb => ?_⟩
  have hb' : m.bc i = false := hb
  have hB := h2 hb
  unfold Network.Balanced at hB ⊢
  show _ = (if m.bc i = true then _ else _) + _ + _ + _ + _
  rw [hb', if_neg (by simp), extra]
  have e : (m.net geo { inp with Q_0Ik := q } wk s co').links.inflow x' i = (m.net geo inp wk s co').links.inflow x' i := rfl
  have e1 : (m.net geo { inp with Q_0Ik := q } wk s co').links.xiSum i = (m.net geo inp wk s co).links.xiSum i := rfl
  have e2 : (m.net geo { inp with Q_0Ik := q } wk s co').orifices = (m.net geo inp wk s co).orifices := rfl
  have e3 : (m.net geo { inp with Q_0Ik := q } wk s co').weirs = (m.net geo inp wk s co).weirs := rfl
  have e4 : (m.net geo { inp with Q_0Ik := q } wk s co').pumps = (m.net geo inp wk s co).pumps := rfl
  have e5 : (m.net geo { inp with Q_0Ik := q } wk s co').As i = (m.net geo inp wk s co).As i := rfl
  rw [e, e1, e2, e3, e4, e5] at hB
  rw [hB]; ring

theorem extra_eq (H : ℕ → ℝ) (i : ℕ) :
    extra m geo inp wk s co co' H i = ∑ k ∈ Finset.range m.ix.NK,
      ((if m.Jd k = i then Qdk (m.endRec wk co' k) (m.headCoef geo s k) (H (m.Ju k)) (H (m.Jd k))
          - Qdk (m.endRec wk co k) (m.headCoef geo s k) (H (m.Ju k)) (H (m.Jd k)) else 0)
        - (if m.Ju k = i then Quk (m.endRec wk co' k) (m.headCoef geo s k) (H (m.Ju k)) (H (m.Jd k))
          - Quk (m.endRec wk co k) (m.headCoef geo s k) (H (m.Ju k)) (H (m.Jd k)) else 0)) := by
  have e : ∀ co, (m.net geo inp wk s co).links.inflow H i = ∑ k ∈ Finset.range m.ix.NK,
      ((if m.Jd k = i then Qdk (m.endRec wk co k) (m.headCoef geo s k) (H (m.Ju k)) (H (m.Jd k)) else 0)
        - (if m.Ju k = i then Quk (m.endRec wk co k) (m.headCoef geo s k) (H (m.Ju k)) (H (m.Jd k)) else 0)) := fun _ => rfl
  rw [extra, e, e, ← Finset.sum_sub_distrib]
  apply Finset.sum_congr rfl
  intro k _
  split_ifs <;> ring

/-! ### C156 -/

/-- **C156 (heads, partial).** Two steps from one state, the second with more lateral inflow, the water gentle wherever more
flows in: no head of the second is lower. -/
theorem C156_heads_partial (c : m.Consistent) (st : StartTables m) (ps : PhysicalStep m geo inp)
    (cw : CleanWork m wk.mats) (he : m.end_method = .b) (p : Pass m geo inp wk s s co x)
    (p' : Pass m geo { inp with Q_0Ik := q } wk s s co' x')
    (more : ∀ k, k < m.ix.NK → ∀ j, j ≤ m.ix.nk k → inp.Q_0Ik (m.ix.I_1k k + j) ≤ q (m.ix.I_1k k + j))
    (hg : ∀ k, k < m.ix.NK → ∀ j, j ≤ m.ix.nk k → inp.Q_0Ik (m.ix.I_1k k + j) < q (m.ix.I_1k k + j) → Gentle m geo inp s k j)
    {i : ℕ} (hi : i < m.M) :
    x i ≤ x' i ∧ (m.advance geo inp wk s co x).H i ≤ (m.advance geo { inp with Q_0Ik := q } wk s co' x').H i := by
  refine C15_monotone (m.net geo inp wk s co) inp.dt ps.dt_pos wk.mats wk.mats cw.mats cw.mats (signed c ps p.coefs) (wired c)
    (Hp := s.H) (Hp' := s.H) (Q0 := inp.Q_in) (fun _ _ => le_rfl) (fun i _ => ?_) (fun _ _ => le_rfl) p.solve
    (extra_solves c cw p') m.z_inv m.max_depth i hi
  show _ ≤ if _ then _ else _
  split_ifs
  · exact le_rfl
  · have : 0 ≤ extra m geo inp wk s co co' x' i := by
      rw [extra_eq]
      refine Finset.sum_nonneg fun k hk => ?_
      have hk := Finset.mem_range.mp hk
      obtain ⟨h1, h2⟩ := superlink_all (wk := wk) c st ps he p.coefs p'.coefs hk (more k hk) (hg k hk) (x' (m.Ju k)) (x' (m.Jd k))
      split_ifs <;> linarith
    linarith

/-- The differences of two solutions at different heads, the same coefficients. -/
theorem heads_raise (c : m.Consistent) (ps : PhysicalStep m geo inp)
    (hc : StepCoefs m.g m.N (m.linkIn geo inp s s) (m.nodeIn geo inp s) m.nix co) {k : ℕ} (hk : k < m.ix.NK)
    {Hu Hd Hu' Hd' : ℝ} (one : Hu = Hu' ∨ Hd = Hd') (h1 : Hu ≤ Hu') (h2 : Hd ≤ Hd') {Q h Q' h' : ℕ → ℝ}
    (S : SolvesAt m geo wk s co k Hu Hd Q h) (S' : SolvesAt m geo wk s co k Hu' Hd' Q' h') :
    ∀ j, j ≤ m.ix.nk k → h j ≤ h' j := by
  have hs := step_headSigns (cur := s) ps hk
  have ch := change_of (fun _ _ => rfl) (fun _ _ => rfl) (fun _ _ => rfl) (fun _ _ => rfl) (fun _ _ => rfl)
    (fun _ _ => rfl) S.eqs S'.eqs
  have sg := change_signs (physical c ps hc hk)
  intro j hj
  have key : 0 ≤ h' j - h j := by
    rcases one with e | e
    · refine (heads_up (c.layout.pos k hk) sg ch hs.ku hs.kd (mul_nonneg hs.ld (sub_nonneg.mpr h2)) (fun _ _ => sub_self _)).2
        ?_ ?_ j hj
      · show h' 0 - h 0 = _; rw [S.first, S'.first, huk, huk, e]; ring
      · show h' _ - h _ = _; rw [S.last, S'.last, hdk, hdk]; ring
    · refine (heads_up (c.layout.pos k hk) sg ch hs.ku hs.kd (mul_nonneg hs.lu (sub_nonneg.mpr h1)) (fun _ _ => sub_self _)).1
        ?_ ?_ j hj
      · show h' 0 - h 0 = _; rw [S.first, S'.first, huk, huk]; ring
      · show h' _ - h _ = _; rw [S.last, S'.last, hdk, hdk, e]; ring
  linarith

/-- **C156 (depths, partial).** If neither step reached a limit, no depth in a pipe is lower either. -/
theorem C156_depths_partial (c : m.Consistent) (st : StartTables m) (ps : PhysicalStep m geo inp)
    (cw : CleanWork m wk.mats) (he : m.end_method = .b) (p : Pass m geo inp wk s s co x)
    (p' : Pass m geo { inp with Q_0Ik := q } wk s s co' x')
    (more : ∀ k, k < m.ix.NK → ∀ j, j ≤ m.ix.nk k → inp.Q_0Ik (m.ix.I_1k k + j) ≤ q (m.ix.I_1k k + j))
    (hg : ∀ k, k < m.ix.NK → ∀ j, j ≤ m.ix.nk k → inp.Q_0Ik (m.ix.I_1k k + j) < q (m.ix.I_1k k + j) → Gentle m geo inp s k j)
    (uc : Unclipped m x (m.advance geo inp wk s co x)
      (endDepthU m geo wk s co (m.advance geo inp wk s co x).H)
      (endDepthD m geo wk s co (m.advance geo inp wk s co x).H))
    (uc' : Unclipped m x' (m.advance geo { inp with Q_0Ik := q } wk s co' x')
      (endDepthU m geo wk s co' (m.advance geo { inp with Q_0Ik := q } wk s co' x').H)
      (endDepthD m geo wk s co' (m.advance geo { inp with Q_0Ik := q } wk s co' x').H))
    {k j : ℕ} (hk : k < m.ix.NK) (hj : j ≤ m.ix.nk k) :
    (m.advance geo inp wk s co x).h (m.ix.I_1k k + j)
      ≤ (m.advance geo { inp with Q_0Ik := q } wk s co' x').h (m.ix.I_1k k + j) := by
  have ps' := lateral_physical ps q
  have hH := fun i (hi : i < m.M) => (C156_heads_partial c st ps cw he p p' more hg hi).2
  obtain ⟨a0, an⟩ := C04_reported_end_depths c uc hk
  obtain ⟨b0, bn⟩ := C04_reported_end_depths c uc' hk
  have S : SolvesAt m geo wk s co k ((m.advance geo inp wk s co x).H (m.Ju k)) ((m.advance geo inp wk s co x).H (m.Jd k))
      (fun j => (m.advance geo inp wk s co x).Q (m.ix.i_1k k + j))
      (fun j => (m.advance geo inp wk s co x).h (m.ix.I_1k k + j)) := ⟨C01_step c ps p he uc hk, a0, an⟩
  have S' : SolvesAt m geo wk s co' k ((m.advance geo { inp with Q_0Ik := q } wk s co' x').H (m.Ju k))
      ((m.advance geo { inp with Q_0Ik := q } wk s co' x').H (m.Jd k))
      (fun j => (m.advance geo { inp with Q_0Ik := q } wk s co' x').Q (m.ix.i_1k k + j))
      (fun j => (m.advance geo { inp with Q_0Ik := q } wk s co' x').h (m.ix.I_1k k + j)) :=
    ⟨C01_step c ps' p' he uc' hk, b0, bn⟩
  have hu := hH _ (c.Ju k hk)
  have hd := hH _ (c.Jd k hk)
  generalize (m.advance geo { inp with Q_0Ik := q } wk s co' x').H (m.Ju k) = Hu' at *
  generalize (m.advance geo { inp with Q_0Ik := q } wk s co' x').H (m.Jd k) = Hd' at *
  generalize (m.advance geo inp wk s co x).H (m.Ju k) = Hu at *
  generalize (m.advance geo inp wk s co x).H (m.Jd k) = Hd at *
  obtain ⟨Q1, h1, e1, f1, l1⟩ := solution_exists (wk := wk) c ps' he p'.coefs hk Hu Hd
  obtain ⟨Q2, h2, e2, f2, l2⟩ := solution_exists (wk := wk) c ps' he p'.coefs hk Hu' Hd
  have r1 := (superlink_up c st ps he p.coefs hk (more k hk) (hg k hk) S (m.ix.nk k + 1) le_rfl q co' Q1 h1
    (fun j hj => by rw [if_pos (by omega)]) p'.coefs ⟨e1, f1, l1⟩).1 j hj
  have r2 := heads_raise c ps' p'.coefs hk (.inr rfl) hu le_rfl ⟨e1, f1, l1⟩ ⟨e2, f2, l2⟩ j hj
  have r3 := heads_raise c ps' p'.coefs hk (.inl rfl) le_rfl hd ⟨e2, f2, l2⟩ S' j hj
  exact r1.trans (r2.trans r3)

/-- Still water at a junction is gentle. -/
theorem Gentle.still (c : m.Consistent) (ps : PhysicalStep m geo inp) {k j : ℕ} (hk : k < m.ix.NK) (hj : j ≤ m.ix.nk k)
    (hu : j < m.ix.nk k → velocityUp m geo s k j = 0) (hd : 0 < j → velocityDown m geo s k (j - 1) = 0) :
    Gentle m geo inp s k j := by
  have hs := step_headSigns (cur := s) ps hk
  have hN := c.inN k hk
  have n1 := c.layout.pos k hk
  refine ⟨fun h => ?_, fun h => ?_, fun h1 h2 => .inl ⟨(hd h1).ge, ?_⟩⟩
  · have := hu (by omega)
    rw [h] at this
    have a := ps.A_pos (m.ix.i_1k k) (by omega)
    rw [this, max_self, zero_mul]
    have := mul_nonpos_of_nonneg_of_nonpos (mul_pos ps.g_pos a).le hs.ku
    linarith
  · have a := ps.A_pos (m.ix.i_1k k + (j - 1)) (by omega)
    rw [hd (by omega), neg_zero, max_self, zero_mul]
    exact mul_nonneg (mul_pos ps.g_pos a).le hs.kd
  · have a := ps.A_pos (m.ix.i_1k k + j) (by omega)
    have b := ps.sigma_pos (m.ix.i_1k k + (j - 1)) (by omega)
    have d := ps.dx_pos (m.ix.i_1k k + (j - 1)) (by omega)
    have t := ps.dt_pos
    rw [hu h2, max_self, zero_mul, zero_mul]
    positivity

/-- **C156 (violated).** The first link of a superlink with a fixed upstream head runs forward, and faster than the
entrance loss balances: more lateral inflow into its first junction, and nowhere else, raises no solved head, and lowers the
head of the free superjunction downstream. -/
theorem C156_held_back (c : m.Consistent) (st : StartTables m) (ps : PhysicalStep m geo inp)
    (cw : CleanWork m wk.mats) (he : m.end_method = .b) (p : Pass m geo inp wk s s co x)
    (p' : Pass m geo { inp with Q_0Ik := q } wk s s co' x') {k : ℕ} (hk : k < m.ix.NK)
    (same : ∀ k', k' < m.ix.NK → ∀ j, j ≤ m.ix.nk k' → (k' ≠ k ∨ j ≠ 0) →
      q (m.ix.I_1k k' + j) = inp.Q_0Ik (m.ix.I_1k k' + j))
    (more : inp.Q_0Ik (m.ix.I_1k k) < q (m.ix.I_1k k))
    (fast : -(m.g * geo.A (m.ix.i_1k k) * (m.headCoef geo s k).kappa_u)
      < max (velocityUp m geo s k 0) 0 * geo.sigma (m.ix.i_1k k))
    (fixed : m.bc (m.Ju k) = true) (free : m.bc (m.Jd k) = false) :
    (∀ i, i < m.M → x' i ≤ x i) ∧ x' (m.Jd k) < x (m.Jd k) := by
  have n1 := c.layout.pos k hk
  have other : ∀ k', k' < m.ix.NK → k' ≠ k → ∀ Hu Hd,
      Quk (m.endRec wk co' k') (m.headCoef geo s k') Hu Hd = Quk (m.endRec wk co k') (m.headCoef geo s k') Hu Hd ∧
      Qdk (m.endRec wk co' k') (m.headCoef geo s k') Hu Hd = Qdk (m.endRec wk co k') (m.headCoef geo s k') Hu Hd := by
    intro k' hk' hne Hu Hd
    have eq := fun j hj => same k' hk' j hj (.inl hne)
    obtain ⟨h1, h2⟩ := superlink_all (wk := wk) c st ps he p.coefs p'.coefs hk' (fun j hj => (eq j hj).ge)
      (fun j hj h => absurd h (by rw [eq j hj]; exact lt_irrefl _)) Hu Hd
    obtain ⟨h3, h4⟩ := superlink_all (wk := wk) (inp := { inp with Q_0Ik := q }) (q := inp.Q_0Ik) c st
      (lateral_physical ps q) he p'.coefs p.coefs hk' (fun j hj => (eq j hj).le)
      (fun j hj h => absurd h (by show ¬ q _ < _; rw [eq j hj]; exact lt_irrefl _)) Hu Hd
    exact ⟨le_antisymm h1 h3, le_antisymm h4 h2⟩
  have own : ∀ Hu Hd, Qdk (m.endRec wk co' k) (m.headCoef geo s k) Hu Hd < Qdk (m.endRec wk co k) (m.headCoef geo s k) Hu Hd := by
    intro Hu Hd
    obtain ⟨Q, h, S, f, l⟩ := solution_exists (wk := wk) c ps he p.coefs hk Hu Hd
    obtain ⟨Q', h', S', f', l'⟩ := solution_exists (wk := wk) c (lateral_physical ps q) he p'.coefs hk Hu Hd
    obtain ⟨L, Nn⟩ := lateral_coefs c p.coefs p'.coefs hk
    have hs := step_headSigns (cur := s) ps hk
    have ch := change_of (fun i hi => (L i hi).1) (fun i hi => (L i hi).2.1) (fun i hi => (L i hi).2.2.1)
      (fun i hi => (L i hi).2.2.2.1) (fun i hi => (L i hi).2.2.2.2) (fun i hi => (Nn i hi).1) S S'
    have sg := change_signs (physical c ps p.coefs hk)
    have eD : ∀ i, i ≤ m.ix.nk k → (co'.slice (m.ix.i_1k k) (m.ix.I_1k k)).D i - (co.slice (m.ix.i_1k k) (m.ix.I_1k k)).D i
        = q (m.ix.I_1k k + i) - inp.Q_0Ik (m.ix.I_1k k + i) := fun i hi => (Nn i hi).2
    have e0 : 0 < (co'.slice (m.ix.i_1k k) (m.ix.I_1k k)).D 0 - (co.slice (m.ix.i_1k k) (m.ix.I_1k k)).D 0 := by
      rw [eD 0 (by omega), add_zero]; linarith
    have key := ((source_first n1 sg ch hs.ku hs.kd
      (by show h' 0 - h 0 = _; rw [f, f', huk, huk]; ring) (by show h' _ - h _ = _; rw [l, l', hdk, hdk]; ring)
      (fun i h1 h2 => by rw [eD i h2, same k hk i h2 (.inr (by omega)), sub_self]) e0.le rfl).2
      (mul_neg_of_pos_of_neg e0 (by
        obtain ⟨a1, -, A1⟩ := coef_adv c st ps p.coefs hk (j := 0) (by omega)
        simp only [Coef.slice, a1, A1]
        rw [add_zero]; linarith))).2
    linarith
  have ex : ∀ i, i < m.M → m.bc i = false → extra m geo inp wk s co co' x' i ≤ 0 ∧
      (i = m.Jd k → extra m geo inp wk s co co' x' i < 0) := by
    intro i hi hb
    have hne : m.Ju k ≠ i := by rintro rfl; rw [fixed] at hb; exact absurd hb (by simp)
    have e : extra m geo inp wk s co co' x' i = if m.Jd k = i then
        Qdk (m.endRec wk co' k) (m.headCoef geo s k) (x' (m.Ju k)) (x' (m.Jd k))
          - Qdk (m.endRec wk co k) (m.headCoef geo s k) (x' (m.Ju k)) (x' (m.Jd k)) else 0 := by
      rw [extra_eq, Finset.sum_eq_single k]
      · rw [if_neg hne, sub_zero]
      · intro k' hk' hn
        obtain ⟨h1, h2⟩ := other k' (Finset.mem_range.mp hk') hn (x' (m.Ju k')) (x' (m.Jd k'))
        rw [h1, h2, sub_self, sub_self]; simp
      · intro h; exact absurd (Finset.mem_range.mpr hk) h
    have o := own (x' (m.Ju k)) (x' (m.Jd k))
    refine ⟨?_, fun h => ?_⟩
    · rw [e]; split_ifs <;> linarith
    · rw [e, if_pos h.symm]; linarith
  have sol := extra_solves (co := co) c cw p'
  have lower : ∀ i, i < m.M → x' i ≤ x i := by
    intro i hi
    refine (C15_monotone (m.net geo inp wk s co) inp.dt ps.dt_pos wk.mats wk.mats cw.mats cw.mats (signed c ps p.coefs) (wired c)
      (Hp := s.H) (Hp' := s.H) (Q0' := inp.Q_in) (fun _ _ => le_rfl) (fun i hi => ?_) (fun _ _ => le_rfl) sol p.solve
      m.z_inv m.max_depth i hi).1
    show (if _ then _ else _) ≤ _
    split_ifs with hb
    · exact le_rfl
    · linarith [(ex i hi (by simpa using hb)).1]
  refine ⟨lower, lt_of_le_of_ne (lower _ (c.Jd k hk)) fun eq => ?_⟩
  have dom := system_colDom (m.net geo inp wk s co) inp.dt ps.dt_pos wk.mats cw.mats (signed c ps p.coefs)
  have hJ := c.Jd k hk
  have r1 := sol (m.Jd k) hJ
  have r2 := p.solve (m.Jd k) hJ
  have r3 : ∑ j ∈ Finset.range m.M, m.lhs geo inp wk s co (m.Jd k) j * (x' j - x j)
      = extra m geo inp wk s co co' x' (m.Jd k) := by
    have e : ∑ j ∈ Finset.range m.M, m.lhs geo inp wk s co (m.Jd k) j * (x' j - x j)
        = ∑ j ∈ Finset.range m.M, m.lhs geo inp wk s co (m.Jd k) j * x' j
          - ∑ j ∈ Finset.range m.M, m.lhs geo inp wk s co (m.Jd k) j * x j := by
      rw [← Finset.sum_sub_distrib]; exact Finset.sum_congr rfl fun _ _ => by ring
    rw [e, r1, r2, Model.rhs]
    have hb : (m.net geo inp wk s co).bc (m.Jd k) = false := free
    simp only [assembleB, hb, assembleD_apply, free]
    simp
  have r4 : 0 ≤ ∑ j ∈ Finset.range m.M, m.lhs geo inp wk s co (m.Jd k) j * (x' j - x j) := by
    refine Finset.sum_nonneg fun j hj => ?_
    have hj := Finset.mem_range.mp hj
    by_cases h : m.Jd k = j
    · rw [← h, eq, sub_self, mul_zero]
    · exact mul_nonneg_of_nonpos_of_nonpos (dom.off _ hJ j hj free h) (sub_nonpos.mpr (lower j hj))
  linarith [(ex _ hJ free).2 rfl]

/-! ### A concrete case -/

/-- One level link of length 10; the head of the upstream superjunction is fixed, no entrance and no exit loss. -/
def heldModel : Model := { inModel false with bc := fun i => i == 0 }

/-- Water one metre deep, flowing at `w` cubic metres per second. -/
def heldGiven (w : ℝ) : Given := ⟨fun _ => 1, fun _ => 1, fun _ => w, fun _ => 0⟩

/-- Lateral inflow `d` into the first junction of the pipe; the upstream head is held at one metre. -/
def heldInp (d : ℝ) : Inputs := { reInp 1 with Q_0Ik := fun I => if I = 0 then d else 0 }

theorem heldConsistent : heldModel.Consistent := by
  refine ⟨⟨fun _ _ => ?_, fun k k' h h' hk => ?_, fun k k' h h' hk => ?_⟩, ?_, fun k hk => ⟨?_, ?_, ?_, ?_, ?_⟩,
    ?_, ?_, ?_, ?_, ?_, ?_, ?_, ?_⟩ <;> simp [heldModel, inModel, reModel] at * <;> try omega

theorem heldSound : Sound heldModel inPlan := by
  refine ⟨heldConsistent, ?_, ?_, ?_, ?_, ?_, ?_, ?_, ?_, ?_, ?_, ?_, ?_, ?_, ?_, ?_, ?_⟩
  all_goals first
    | (intros; simp [heldModel, inModel, inPlan, reModel, rePlan, Section.Usable, Geometry.Wettable, Geometry.Valid,
        Storage.Usable]; done)
    | (norm_num [heldModel, inModel, inPlan, reModel, rePlan, Section.Usable, Geometry.Wettable, Geometry.Valid, Storage.Usable])

theorem heldTables : StartTables heldModel := by
  refine ⟨fun k hk j hj => ?_, fun k hk j hj => ?_⟩ <;> simp [heldModel, inModel, reModel] at *

theorem heldGood (d : ℝ) : GoodInputs heldModel inPlan (heldInp d) :=
  ⟨(reGood 1).dt_pos, fun p hp => by simp [heldModel, inModel, reModel] at hp,
    fun a ha => by simp [heldModel, inModel, reModel] at ha⟩

theorem heldStart (w : ℝ) (j : ℕ) : (heldModel.start (heldGiven w)).H j = 1 := by
  norm_num [Model.start, heldModel, inModel, reModel, heldGiven]

theorem held_geo (w : ℝ) (Ao : ℕ → ℝ) :
    (heldModel.geoOf inPlan (Hidden.fresh fun _ => 0) Ao (heldModel.start (heldGiven w))).A 0 = 1 ∧
    (heldModel.geoOf inPlan (Hidden.fresh fun _ => 0) Ao (heldModel.start (heldGiven w))).B 0 = 1 ∧
    (heldModel.geoOf inPlan (Hidden.fresh fun _ => 0) Ao (heldModel.start (heldGiven w))).As 1 = 1 ∧
    (heldModel.geoOf inPlan (Hidden.fresh fun _ => 0) Ao (heldModel.start (heldGiven w))).sigma 0 = 1 := by
  refine ⟨?_, ?_, ?_, ?_⟩
  · norm_num [Model.geoOf, inPlan, rePlan, Section.A, heldModel, inModel, reModel, Model.start, heldGiven,
      Geometry.area, Geometry.topWidth, Geometry.rectA, Geometry.rectOpenB, Geometry.depth, Geometry.wet]
  · norm_num [Model.geoOf, inPlan, rePlan, Section.B, heldModel, inModel, reModel, Model.start, heldGiven,
      Geometry.area, Geometry.topWidth, Geometry.rectA, Geometry.rectOpenB, Geometry.depth, Geometry.wet]
  · norm_num [Model.geoOf, inPlan, rePlan, upTo, heldModel, inModel, reModel, Model.start, heldGiven, Storage.A,
      Interp.functionalArea, Interp.storageDepth]
  · rfl

theorem held_range {w d E b g y : ℝ} (w0 : 0 ≤ w) (w1 : w ≤ 1) (d0 : 0 ≤ d) (d1 : d ≤ 10) (E1 : 0 ≤ E) (g0 : 0 ≤ g)
    (lo : 10 ≤ -w + b) (key : ((-w + b) * (1 + E) + g) * y = w * (10 - d)) : 0 ≤ y ∧ y ≤ 1 := by
  have big : 10 ≤ (-w + b) * (1 + E) + g := by
    have := mul_nonneg (by linarith : 0 ≤ -w + b) E1
    linarith [mul_add (-w + b) 1 E]
  have r0 : 0 ≤ w * (10 - d) := mul_nonneg w0 (by linarith)
  have r1 : w * (10 - d) ≤ 10 := by
    have := mul_le_mul w1 (by linarith : 10 - d ≤ 10) (by linarith) zero_le_one
    linarith
  generalize (-w + b) * (1 + E) + g = G at *
  rw [← key] at r0 r1
  refine ⟨nonneg_of_mul_nonneg_right r0 (by linarith), ?_⟩
  by_contra hn
  push Not at hn
  have := mul_lt_mul_of_pos_left hn (by linarith : 0 < G)
  linarith

theorem held_head {w d : ℝ} {Ao : ℕ → ℝ} {co : Coef ℝ} {x : ℕ → ℝ} (w0 : 0 ≤ w) (w1 : w ≤ 1) (d0 : 0 ≤ d) (d1 : d ≤ 10)
    (p : Pass heldModel (heldModel.geoOf inPlan (Hidden.fresh fun _ => 0) Ao (heldModel.start (heldGiven w))) (heldInp d)
      freshWork (heldModel.start (heldGiven w)) (heldModel.start (heldGiven w)) co x) :
    0 ≤ x 1 ∧ x 1 ≤ 10 := by
  have wet : ∀ I, heldModel.min_depth ≤ (heldModel.start (heldGiven w)).h I := fun _ => by
    norm_num [heldModel, inModel, reModel, heldGiven, Model.start]
  have ps := physical_geoOf heldSound (heldGood d) (Hidden.fresh fun _ => 0) Ao (s := heldModel.start (heldGiven w)) wet
  obtain ⟨gA, gB, gS, gs⟩ := held_geo w Ao
  generalize hgeo : heldModel.geoOf inPlan (Hidden.fresh fun _ => 0) Ao (heldModel.start (heldGiven w)) = geo at *
  have hk : 0 < heldModel.ix.NK := by norm_num [heldModel, inModel, reModel]
  obtain ⟨Q, h, S, f, l⟩ := solution_exists (wk := freshWork) heldConsistent ps rfl p.coefs hk (x 0) (x 1)
  have bal := (solves_iff (heldModel.net geo (heldInp d) freshWork _ co) 1 freshWork.mats (freshClean _).mats
    (wired heldConsistent) _ _ _ _).1 p.solve
  have x0 : x 0 = 1 := (bal 0 (by show 0 < 2; norm_num)).1 rfl
  have b1 := (bal 1 (by show 1 < 2; norm_num)).2 rfl
  have nN : heldModel.ix.NK = 1 := rfl
  have u0 : heldModel.Ju 0 = 0 := rfl
  have v0 : heldModel.Jd 0 = 1 := rfl
  have b2 : x 1 - 1 = Qdk (heldModel.endRec freshWork co 0) (heldModel.headCoef geo (heldModel.start (heldGiven w)) 0) (x 0) (x 1) := by
    have e1 : (heldModel.net geo (heldInp d) freshWork (heldModel.start (heldGiven w)) co).links.xiSum 1 = 0 := by
      simp only [Links.xiSum, Model.net, nN, Finset.sum_range_one, u0, v0]
      simp [xi, heldModel, inModel]
    have e2 : (heldModel.net geo (heldInp d) freshWork (heldModel.start (heldGiven w)) co).links.inflow x 1
        = Qdk (heldModel.endRec freshWork co 0) (heldModel.headCoef geo (heldModel.start (heldGiven w)) 0) (x 0) (x 1) := by
      simp only [Links.inflow, Model.net, nN, Finset.sum_range_one, u0, v0, Links.Qd]
      simp [Qdk]
    have e3 : (heldModel.net geo (heldInp d) freshWork (heldModel.start (heldGiven w)) co).orifices.inflow x 1 = 0 := by
      simp [Ctrls.inflow, Model.net, heldModel, inModel, reModel]
    have e4 : (heldModel.net geo (heldInp d) freshWork (heldModel.start (heldGiven w)) co).weirs.inflow x 1 = 0 := by
      simp [Ctrls.inflow, Model.net, heldModel, inModel, reModel]
    have e5 : (heldModel.net geo (heldInp d) freshWork (heldModel.start (heldGiven w)) co).pumps.inflow x 1 = 0 := by
      simp [Ctrls.inflow, Model.net, heldModel, inModel, reModel]
    have e6 : (heldModel.net geo (heldInp d) freshWork (heldModel.start (heldGiven w)) co).As 1 = 1 := gS
    have e7 : (heldInp d).Q_in 1 = 0 := rfl
    unfold Network.Balanced at b1
    rw [e1, e2, e3, e4, e5, e6, heldStart] at b1
    change _ = 0 + _ + _ + _ + _ at b1
    linarith
  generalize Qdk (heldModel.endRec freshWork co 0) (heldModel.headCoef geo (heldModel.start (heldGiven w)) 0) (x 0) (x 1) = Qd at *
  have kz : (heldModel.headCoef geo (heldModel.start (heldGiven w)) 0).kappa_u = 0 ∧
      (heldModel.headCoef geo (heldModel.start (heldGiven w)) 0).kappa_d = 0 := by
    simp [Model.headCoef, headCoefZ, gammaUk, gammaDk, safeDivide_eq, heldModel, inModel, reModel]
  have h0 : h 0 = 1 := by
    rw [f, huk, kz.1, x0]
    simp [Model.headCoef, headCoefZ, theta, heldStart, u0]
    norm_num [heldModel, inModel]
  have h1 : h 1 = x 1 := by
    have l : h 1 = hdk _ _ _ _ := l
    rw [l, hdk, kz.2]
    simp [Model.headCoef, headCoefZ, theta, heldStart, v0]
    norm_num [heldModel, inModel]
  have mo := S.momentum 0 (by norm_num [heldModel, inModel, reModel])
  have c0 := S.continuity 0 (by norm_num [heldModel, inModel, reModel])
  have c1 := S.continuity 1 (by norm_num [heldModel, inModel, reModel])
  generalize Quk (heldModel.endRec freshWork co 0) (heldModel.headCoef geo (heldModel.start (heldGiven w)) 0) (x 0) (x 1) = Qu at *
  have nk : heldModel.ix.nk 0 = 1 := rfl
  rw [qIn_zero, zero_add, nk, qOut_end, h0, h1] at mo
  rw [qIn_zero, nk, qOut_lt _ _ (by norm_num), h0] at c0
  rw [show (1 : ℕ) = 0 + 1 from rfl, qIn_succ, zero_add, nk, qOut_end, h1] at c1
  obtain ⟨ca, cc, cA⟩ := coef_adv heldConsistent heldTables ps p.coefs hk (j := 0) (by norm_num [heldModel, inModel, reModel])
  have lo := coef_lower heldConsistent ps p.coefs hk (j := 0) (by norm_num [heldModel, inModel, reModel])
  have i0 : heldModel.ix.i_1k 0 = 0 := rfl
  have I0 : heldModel.ix.I_1k 0 = 0 := rfl
  have vu : velocityUp heldModel geo (heldModel.start (heldGiven w)) 0 0 = w := by
    simp only [velocityUp, i0, add_zero, gA, if_true]
    simp [Model.start, heldGiven]
  have vd : velocityDown heldModel geo (heldModel.start (heldGiven w)) 0 0 = w := by
    simp only [velocityDown, i0, nk, add_zero, zero_add, gA, if_true]
    simp [Model.start, heldGiven]
  rw [vu, i0, add_zero, gs, max_eq_left w0, mul_one] at ca
  rw [vd, i0, add_zero, gs, max_eq_right (by linarith), neg_zero, zero_mul] at cc
  rw [i0, add_zero, gA] at cA
  have cP : co.P 0 = 10 * w := by
    obtain ⟨-, -, -, hP, -⟩ := p.coefs.1 0 (by norm_num [heldModel, inModel, reModel])
    rw [hP]
    simp only [LinkIn.P, Model.linkIn, PIk, gs, gA]
    norm_num [heldModel, inModel, reModel, heldInp, reInp, heldGiven, Model.start]
    ring
  have n0 := node_coeffs_eq (y := heldModel.nodeIn geo (heldInp d) (heldModel.start (heldGiven w)))
    (heldConsistent.layout.pos 0 hk) (heldConsistent.nodes 0 hk) (j := 0) (Nat.zero_le _)
  have n1 := node_coeffs_eq (y := heldModel.nodeIn geo (heldInp d) (heldModel.start (heldGiven w)))
    (heldConsistent.layout.pos 0 hk) (heldConsistent.nodes 0 hk) (j := 1) (by rw [nk])
  have D0 : co.D 0 = d + co.E 0 := by
    rw [p.coefs.2.2, p.coefs.2.1]
    have a := n0.1
    have b := n0.2
    rw [I0, add_zero] at a b
    rw [b, ← a]
    simp [Model.nodeIn, heldInp, Model.start, heldGiven]
  have D1 : co.D 1 = co.E 1 := by
    rw [p.coefs.2.2, p.coefs.2.1]
    have a := n1.1
    have b := n1.2
    rw [I0, zero_add] at a b
    rw [b, ← a]
    simp [Model.nodeIn, heldInp, Model.start, heldGiven]
  have E1 : 0 ≤ co.E 1 := (physical heldConsistent ps p.coefs hk).E_nonneg 1 (by rw [nk])
  simp only [Coef.slice, i0, I0, zero_add, D0, D1, ca, cc, cA, cP] at mo c0 c1
  have lo : 10 ≤ -w + co.b 0 := by
    rw [i0, add_zero, gs, ca, cc] at lo
    have : heldModel.dx 0 / (heldInp d).dt = 10 := by norm_num [heldModel, inModel, reModel, heldInp, reInp]
    rw [this] at lo; linarith
  have g0 := ps.g_pos
  have key : ((-w + co.b 0) * (1 + co.E 1) + heldModel.g) * (x 1 - 1) = w * (10 - d) := by
    have e1 : Q 0 = (1 + co.E 1) * (x 1 - 1) := by linear_combination -b2 - c1
    have e2 : Qu = Q 0 - d := by linear_combination -c0
    rw [e2, e1] at mo
    linear_combination mo
  have := held_range w0 w1 d0 d1 E1 g0.le lo key
  constructor <;> linarith

/-- **C156, refuted.** Water flowing out of a superjunction of fixed level into a pipe without entrance loss: more lateral
inflow into the first junction of the pipe, up to ten cubic metres per second, lowers the level the step reports downstream. -/
theorem C156_not_kept {d d' : ℝ} (d0 : 0 ≤ d) (hd : d < d') (d1 : d' ≤ 10) :
    ∃ o o', Calls1 heldModel inPlan true (heldInp d) (heldModel.blank (heldGiven 1)) o ∧
      Calls1 heldModel inPlan true (heldInp d') (heldModel.blank (heldGiven 1)) o' ∧ o'.cur.H 1 < o.cur.H 1 := by
  have wet : ∀ I, heldModel.min_depth ≤ (heldGiven 1).hJ I := fun _ => by norm_num [heldModel, inModel, reModel, heldGiven]
  have hA : ∀ d, ∃ co x, Pass heldModel (heldModel.geoOf inPlan (Hidden.fresh fun _ => 0) (fun _ => 0) (heldModel.start (heldGiven 1)))
      (heldInp d) freshWork (heldModel.start (heldGiven 1)) (heldModel.start (heldGiven 1)) co x := fun d =>
    C06_step_exists heldConsistent (physical_geoOf heldSound (heldGood d) (Hidden.fresh fun _ => 0) _ wet) (freshClean _)
      heldSound.friction
  obtain ⟨co, x, p⟩ := hA d
  obtain ⟨co', x', p'⟩ := hA d'
  refine ⟨_, _, ⟨fun _ => 0, co, x, fun a ha => by simp [heldModel, inModel, reModel] at ha, p, rfl⟩,
    ⟨fun _ => 0, co', x', fun a ha => by simp [heldModel, inModel, reModel] at ha, p', rfl⟩, ?_⟩
  have ps := physical_geoOf heldSound (heldGood d) (Hidden.fresh fun _ => 0) (fun _ => 0) (s := heldModel.start (heldGiven 1)) wet
  have a := held_head zero_le_one le_rfl d0 (by linarith) p
  have b := held_head zero_le_one le_rfl (by linarith) d1 p'
  have hk : 0 < heldModel.ix.NK := by norm_num [heldModel, inModel, reModel]
  obtain ⟨gA, -, -, gs⟩ := held_geo 1 fun _ => 0
  have key := (C156_held_back (q := fun I => if I = 0 then d' else 0) heldConsistent heldTables ps (freshClean _) rfl p p' hk
    (fun k' h j hj hn => by
      have : k' = 0 := by simp only [heldModel, inModel, reModel] at h; omega
      subst this
      have : j ≠ 0 := by rcases hn with h | h; exacts [absurd rfl h, h]
      simp [heldInp, heldModel, inModel, reModel, this])
    (by simpa [heldInp, heldModel, inModel, reModel] using hd)
    (by
      have i0 : heldModel.ix.i_1k 0 = 0 := rfl
      have kz : (heldModel.headCoef (heldModel.geoOf inPlan (Hidden.fresh fun _ => 0) (fun _ => 0)
          (heldModel.start (heldGiven 1))) (heldModel.start (heldGiven 1)) 0).kappa_u = 0 := by
        simp [Model.headCoef, headCoefZ, gammaUk, safeDivide_eq, heldModel, inModel, reModel]
      rw [kz, i0, gs]
      simp only [velocityUp, i0, add_zero, gA, if_true]
      norm_num [Model.start, heldGiven])
    rfl rfl).2
  have key : x' 1 < x 1 := key
  show min (max (x' 1) 0) (0 + 10) < min (max (x 1) 0) (0 + 10)
  rw [max_eq_left a.1, max_eq_left b.1, zero_add, min_eq_left a.2, min_eq_left b.2]
  exact key

/-- A case of the partial theorem: the same channel with water at rest. -/
example {d d' : ℝ} (hd : d ≤ d') :
    ∃ o o', Calls1 heldModel inPlan true (heldInp d) (heldModel.blank (heldGiven 0)) o ∧
      Calls1 heldModel inPlan true (heldInp d') (heldModel.blank (heldGiven 0)) o' ∧ o.cur.H 1 ≤ o'.cur.H 1 := by
  have wet : ∀ I, heldModel.min_depth ≤ (heldGiven 0).hJ I := fun _ => by norm_num [heldModel, inModel, reModel, heldGiven]
  have hA : ∀ d, ∃ co x, Pass heldModel (heldModel.geoOf inPlan (Hidden.fresh fun _ => 0) (fun _ => 0) (heldModel.start (heldGiven 0)))
      (heldInp d) freshWork (heldModel.start (heldGiven 0)) (heldModel.start (heldGiven 0)) co x := fun d =>
    C06_step_exists heldConsistent (physical_geoOf heldSound (heldGood d) (Hidden.fresh fun _ => 0) _ wet) (freshClean _)
      heldSound.friction
  obtain ⟨co, x, p⟩ := hA d
  obtain ⟨co', x', p'⟩ := hA d'
  refine ⟨_, _, ⟨fun _ => 0, co, x, fun a ha => by simp [heldModel, inModel, reModel] at ha, p, rfl⟩,
    ⟨fun _ => 0, co', x', fun a ha => by simp [heldModel, inModel, reModel] at ha, p', rfl⟩, ?_⟩
  have ps := physical_geoOf heldSound (heldGood d) (Hidden.fresh fun _ => 0) (fun _ => 0) (s := heldModel.start (heldGiven 0)) wet
  refine (C156_heads_partial (q := fun I => if I = 0 then d' else 0) heldConsistent heldTables ps (freshClean _) rfl p p'
    (fun k hk j hj => ?_) (fun k hk j hj _ => Gentle.still heldConsistent ps hk hj (fun h => ?_) (fun h => ?_))
    (i := 1) (by norm_num [heldModel, inModel, reModel])).2
  · show (if _ then d else 0) ≤ if _ then d' else 0
    split_ifs <;> linarith
  · simp [velocityUp, Model.start, heldGiven]
  · simp [velocityDown, Model.start, heldGiven]

end

end Pipedream.Step
