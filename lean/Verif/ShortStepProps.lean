import Verif.LevelProps

/-!
# C153: a short step changes little

As the step size goes to zero, what a step changes goes to zero with it, at least proportionally: heads,
depths and link flows. The constants do not depend on the step size.
-/

namespace Pipedream.Step

open Pipedream.Sweep Pipedream.Link Pipedream.Superlink Pipedream.Control Pipedream.Network

/-! ### Bounds over finitely many elements -/

theorem bound_upto (f : ℕ → ℝ) (n : ℕ) : ∃ K, 0 ≤ K ∧ ∀ j, j ≤ n → |f j| ≤ K :=
  ⟨∑ j ∈ Finset.range (n + 1), |f j|, Finset.sum_nonneg fun _ _ => abs_nonneg _, fun j hj =>
    Finset.single_le_sum (f := fun j => |f j|) (fun _ _ => abs_nonneg _) (Finset.mem_range.mpr (by omega))⟩

theorem least_upto (f : ℕ → ℝ) (n : ℕ) (h : ∀ j, j ≤ n → 0 < f j) : ∃ e, 0 < e ∧ ∀ j, j ≤ n → e ≤ f j := by
  obtain ⟨i, hi, him⟩ := Finset.exists_min_image (Finset.range (n + 1)) f ⟨0, by simp⟩
  exact ⟨f i, h i (by have := Finset.mem_range.mp hi; omega), fun j hj => him j (Finset.mem_range.mpr (by omega))⟩

/-! ### One superlink -/

/-- What the coefficients of a superlink are made of, none of it depending on the step size: `mu` inertia,
`f` friction, `G` weight along the bed, `S` surface areas, `q` lateral inflow, `Q`, `d` flows and depths
before the step. -/
structure Parts (g : ℝ) (n : ℕ) (A a c mu f G S q Q d : ℕ → ℝ) (dt : ℝ) (co : Coef ℝ) : Prop where
  eA : ∀ j, j < n → co.A j = A j
  ea : ∀ j, j < n → co.a j = a j
  ec : ∀ j, j < n → co.c j = c j
  eb : ∀ j, j < n → co.b j = mu j / dt + f j - a j - c j
  eP : ∀ j, j < n → co.P j = mu j / dt * Q j + G j
  eE : ∀ j, j ≤ n → co.E j = S j / dt
  eD : ∀ j, j ≤ n → co.D j = q j + S j / dt * d j

/-- Bounded flows over a short time change depths and flows little. -/
theorem short_from_bounded {g : ℝ} (g0 : 0 < g) {n : ℕ} {A a c mu f G S q Q d : ℕ → ℝ}
    (A0 : ∀ j, j < n → 0 < A j) (mu0 : ∀ j, j < n → 0 < mu j) (S0 : ∀ j, j ≤ n → 0 < S j)
    {T B' : ℝ} (T0 : 0 < T) (B'0 : 0 ≤ B') :
    ∃ C, 0 ≤ C ∧ ∀ dt, 0 < dt → dt ≤ T → ∀ co : Coef ℝ, Parts g n A a c mu f G S q Q d dt co →
      ∀ Q' h' Qu Qd, SaintVenant g co n Q' h' Qu Qd → (∀ j, j < n → |Q' j| ≤ B') → |Qu| ≤ B' → |Qd| ≤ B' →
        (∀ j, j < n → |Q' j - Q j| ≤ C * dt) ∧ ∀ j, j ≤ n → |h' j - d j| ≤ C * dt := by
  obtain ⟨KA, KA0, hA⟩ := bound_upto A n
  obtain ⟨Ka, Ka0, ha⟩ := bound_upto a n
  obtain ⟨Kc, Kc0, hc⟩ := bound_upto c n
  obtain ⟨Kf, Kf0, hf⟩ := bound_upto f n
  obtain ⟨KG, KG0, hG⟩ := bound_upto G n
  obtain ⟨Kq, Kq0, hq⟩ := bound_upto q n
  obtain ⟨Kd, Kd0, hd⟩ := bound_upto d n
  obtain ⟨e, e0, he⟩ := least_upto S n S0
  obtain ⟨w, w0, hw⟩ := least_upto (fun j => if j < n then mu j else 1) n
    (fun j _ => by split_ifs with h; exacts [mu0 j h, one_pos])
  have hw : ∀ j, j < n → w ≤ mu j := fun j hj => by have := hw j hj.le; rwa [if_pos hj] at this
  set C1 := (Kq + 2 * B') / e with hC1
  have C10 : 0 ≤ C1 := by positivity
  set C2 := (KG + g * KA * (2 * (Kd + C1 * T)) + (Kf + 2 * (Ka + Kc)) * B') / w with hC2
  have C20 : 0 ≤ C2 := by positivity
  refine ⟨C1 + C2, by positivity, ?_⟩
  intro dt dt0 dtT co p Q' h' Qu Qd SV bQ bu bd
  have bin : ∀ j, j ≤ n → |qIn Q' Qu j| ≤ B' := by
    intro j hj
    unfold qIn; split_ifs
    · exact bu
    · exact bQ _ (by omega)
  have bout : ∀ j, j ≤ n → |qOut n Q' Qd j| ≤ B' := by
    intro j hj
    unfold qOut; split_ifs with h
    · exact bd
    · exact bQ _ (by omega)
  have dep : ∀ j, j ≤ n → |h' j - d j| ≤ C1 * dt := by
    intro j hj
    have ce := SV.continuity j hj
    rw [p.eE j hj, p.eD j hj] at ce
    have s0 := S0 j hj
    have e' : h' j - d j = dt / S j * (q j + qIn Q' Qu j - qOut n Q' Qd j) := by
      have : q j + qIn Q' Qu j - qOut n Q' Qd j = S j / dt * (h' j - d j) := by linear_combination -ce
      rw [this]
      field_simp
    rw [e', abs_mul, abs_of_pos (div_pos dt0 s0)]
    have h1 : |q j + qIn Q' Qu j - qOut n Q' Qd j| ≤ Kq + 2 * B' := by
      refine (abs_sub _ _).trans ?_
      have := abs_add_le (q j) (qIn Q' Qu j)
      have := hq j hj
      have := bin j hj
      have := bout j hj
      linarith
    have h2 : dt / S j ≤ dt / e := div_le_div_of_nonneg_left dt0.le e0 (he j hj)
    refine (mul_le_mul h2 h1 (abs_nonneg _) (by positivity)).trans (le_of_eq ?_)
    rw [hC1]; ring
  refine ⟨fun j hj => ?_, fun j hj => (dep j hj).trans (mul_le_mul_of_nonneg_right (by linarith) dt0.le)⟩
  · have mo := SV.momentum j hj
    rw [p.ea j hj, p.eb j hj, p.ec j hj, p.eP j hj, p.eA j hj] at mo
    have m0 := mu0 j hj
    have hAj : A j ≤ KA := (le_abs_self _).trans (hA j hj.le)
    have e' : Q' j - Q j = dt / mu j * (G j + g * A j * (h' j - h' (j + 1))
        - (f j - a j - c j) * Q' j - a j * qIn Q' Qu j - c j * qOut n Q' Qd (j + 1)) := by
      have : G j + g * A j * (h' j - h' (j + 1)) - (f j - a j - c j) * Q' j - a j * qIn Q' Qu j
          - c j * qOut n Q' Qd (j + 1) = mu j / dt * (Q' j - Q j) := by linear_combination -mo
      rw [this]
      field_simp
    have dd : ∀ i, i ≤ n → |h' i| ≤ Kd + C1 * T := by
      intro i hi
      have h1 := abs_add_le (h' i - d i) (d i)
      rw [sub_add_cancel] at h1
      have h2 := dep i hi
      have h3 := hd i hi
      have h4 := mul_le_mul_of_nonneg_left dtT C10
      linarith
    have t1 : |g * A j * (h' j - h' (j + 1))| ≤ g * KA * (2 * (Kd + C1 * T)) := by
      rw [abs_mul, abs_of_pos (mul_pos g0 (A0 j hj))]
      refine mul_le_mul (mul_le_mul_of_nonneg_left hAj g0.le) ((abs_sub _ _).trans ?_) (abs_nonneg _) (by positivity)
      have := dd j hj.le
      have := dd (j + 1) hj
      linarith
    have t2 : |(f j - a j - c j) * Q' j| ≤ (Kf + Ka + Kc) * B' := by
      rw [abs_mul]
      refine mul_le_mul ?_ (bQ j hj) (abs_nonneg _) (by positivity)
      have := abs_sub (f j - a j) (c j)
      have := abs_sub (f j) (a j)
      have := hf j hj.le
      have := ha j hj.le
      have := hc j hj.le
      linarith
    have t3 : |a j * qIn Q' Qu j| ≤ Ka * B' := by
      rw [abs_mul]; exact mul_le_mul (ha j hj.le) (bin j hj.le) (abs_nonneg _) Ka0
    have t4 : |c j * qOut n Q' Qd (j + 1)| ≤ Kc * B' := by
      rw [abs_mul]; exact mul_le_mul (hc j hj.le) (bout (j + 1) hj) (abs_nonneg _) Kc0
    rw [e', abs_mul, abs_of_pos (div_pos dt0 m0)]
    have h1 : |G j + g * A j * (h' j - h' (j + 1))
        - (f j - a j - c j) * Q' j - a j * qIn Q' Qu j - c j * qOut n Q' Qd (j + 1)|
        ≤ KG + g * KA * (2 * (Kd + C1 * T)) + (Kf + 2 * (Ka + Kc)) * B' := by
      have u1 := abs_sub (G j + g * A j * (h' j - h' (j + 1)) - (f j - a j - c j) * Q' j - a j * qIn Q' Qu j)
        (c j * qOut n Q' Qd (j + 1))
      have u2 := abs_sub (G j + g * A j * (h' j - h' (j + 1)) - (f j - a j - c j) * Q' j) (a j * qIn Q' Qu j)
      have u3 := abs_sub (G j + g * A j * (h' j - h' (j + 1))) ((f j - a j - c j) * Q' j)
      have u4 := abs_add_le (G j) (g * A j * (h' j - h' (j + 1)))
      have u5 := hG j hj.le
      linarith
    have h2 : dt / mu j ≤ dt / w := div_le_div_of_nonneg_left dt0.le w0 (hw j hj)
    refine (mul_le_mul h2 h1 (abs_nonneg _) (by positivity)).trans ?_
    have e3 : dt / w * (KG + g * KA * (2 * (Kd + C1 * T)) + (Kf + 2 * (Ka + Kc)) * B') = C2 * dt := by
      rw [hC2]; ring
    rw [e3]
    exact mul_le_mul_of_nonneg_right (by linarith) dt0.le

theorem short_pipe {g : ℝ} (g0 : 0 < g) {n : ℕ} (hn : 1 ≤ n) {A a c mu f G S q Q d : ℕ → ℝ}
    (A0 : ∀ j, j < n → 0 < A j) (a0 : ∀ j, j < n → a j ≤ 0) (c0 : ∀ j, j < n → c j ≤ 0)
    (mu0 : ∀ j, j < n → 0 < mu j) (f0 : ∀ j, j < n → 0 ≤ f j) (S0 : ∀ j, j ≤ n → 0 < S j)
    {ku kd lu ld ou od Hu Hd Gu Gd : ℝ} (ku0 : ku ≤ 0) (kd0 : 0 ≤ kd) (lu1 : |lu| ≤ 1) (ld1 : |ld| ≤ 1)
    (fu : d 0 = ku * Gu + lu * Hu + ou) (fd : d n = kd * Gd + ld * Hd + od) {T R : ℝ} (T0 : 0 < T) (R0 : 0 ≤ R) :
    ∃ C, 0 ≤ C ∧ ∀ dt, 0 < dt → dt ≤ T → ∀ co : Coef ℝ, Parts g n A a c mu f G S q Q d dt co →
      ∀ Hu' Hd', |Hu' - Hu| ≤ R * dt → |Hd' - Hd| ≤ R * dt → ∀ Q' h' Qu Qd, SaintVenant g co n Q' h' Qu Qd →
        h' 0 = ku * Qu + lu * Hu' + ou → h' n = kd * Qd + ld * Hd' + od →
        (∀ j, j < n → |Q' j - Q j| ≤ C * dt) ∧ (∀ j, j ≤ n → |h' j - d j| ≤ C * dt) ∧ |Qu| ≤ C ∧ |Qd| ≤ C := by
  obtain ⟨KA, KA0, hA⟩ := bound_upto A n
  obtain ⟨Ka, Ka0, ha⟩ := bound_upto a n
  obtain ⟨Kc, Kc0, hc⟩ := bound_upto c n
  obtain ⟨Kf, Kf0, hf⟩ := bound_upto f n
  obtain ⟨KG, KG0, hG⟩ := bound_upto G n
  obtain ⟨KS, KS0, hS⟩ := bound_upto S n
  obtain ⟨Kq, Kq0, hq⟩ := bound_upto q n
  obtain ⟨KQ, KQ0, hQ⟩ := bound_upto Q n
  obtain ⟨Kd, Kd0, hd⟩ := bound_upto d n
  obtain ⟨e, e0, he⟩ := least_upto S n S0
  obtain ⟨w, w0, hw⟩ := least_upto (fun j => if j < n then mu j else 1) n
    (fun j _ => by split_ifs with h; exacts [mu0 j h, one_pos])
  have hw : ∀ j, j < n → w ≤ mu j := fun j hj => by have := hw j hj.le; rwa [if_pos hj] at this
  -- the end heads and lateral inflow move the ends by at most `r dt`
  set r := R + Kq / e with hr
  have r0 : 0 ≤ r := by positivity
  set L := KG + g * KA * (2 * (Kd + T * (Kq / e))) + 2 * (g * KA * (r * T) + (Ka + Kc) * KS * r) with hL
  have L0 : 0 ≤ L := by positivity
  set B := KQ + L * T / w + |Gu| + |Gd| with hB
  have B0 : 0 ≤ B := by positivity
  set B' := B + KS * r with hB'
  have B'0 : 0 ≤ B' := by positivity
  obtain ⟨C, C0, hC⟩ := short_from_bounded g0 A0 mu0 S0 (a := a) (c := c) (f := f) (G := G) (q := q) (Q := Q) (d := d) T0 B'0
  refine ⟨C + B', by positivity, ?_⟩
  intro dt dt0 dtT co p Hu' Hd' hHu hHd Q' h' Qu Qd SV e1 e2
  have muT : ∀ j, j < n → w / T ≤ mu j / dt := fun j hj =>
    div_le_div₀ (mu0 j hj).le (hw j hj) dt0 dtT
  have ph : Physical g co n := by
    refine ⟨g0, fun j hj => ?_, fun j hj => ?_, fun j hj => ?_, fun j hj => ?_, fun j hj => ?_⟩
    · rw [p.eA j hj]; exact A0 j hj
    · rw [p.ea j hj]; exact a0 j hj
    · rw [p.ec j hj]; exact c0 j hj
    · rw [p.ea j hj, p.eb j hj, p.ec j hj]
      have := div_pos (mu0 j hj) dt0
      have := f0 j hj
      linarith
    · rw [p.eE j hj]; exact (div_pos (S0 j hj) dt0).le
  have qs : ∀ j, j ≤ n → |dt * q j / S j| ≤ dt * (Kq / e) := by
    intro j hj
    rw [abs_div, abs_mul, abs_of_pos dt0, abs_of_pos (S0 j hj), mul_div_assoc]
    exact mul_le_mul_of_nonneg_left (div_le_div₀ Kq0 (hq j hj) e0 (he j hj)) dt0.le
  have key := max_principle (d := fun j => d j + dt * q j / S j) (Gu := Gu) (Gd := Gd) (ku := ku) (kd := kd)
    (eu := lu * (Hu' - Hu) - dt * q 0 / S 0) (ed := ld * (Hd' - Hd) - dt * q n / S n) (du := r * dt) (dd := r * dt)
    (B := B) hn ph SV
    (fun j hj => by
      rw [p.eD j hj, p.eE j hj]
      have := (S0 j hj).ne'
      field_simp
      ring)
    (fun j _ hj => by rw [p.eE j hj.le]; exact div_pos (S0 j hj.le) dt0) ku0 kd0
    (by rw [e1, fu]; ring) (by rw [e2, fd]; ring)
    (by
      refine (abs_sub _ _).trans ?_
      rw [abs_mul]
      have h1 := mul_le_mul lu1 hHu (abs_nonneg _) zero_le_one
      have h2 := qs 0 (by omega)
      rw [hr]
      linarith)
    (by
      refine (abs_sub _ _).trans ?_
      rw [abs_mul]
      have h1 := mul_le_mul ld1 hHd (abs_nonneg _) zero_le_one
      have h2 := qs n le_rfl
      rw [hr]
      linarith)
    (by
      have : 0 ≤ L * T / w := by positivity
      have := abs_nonneg Gd
      rw [hB]; linarith)
    (by
      have : 0 ≤ L * T / w := by positivity
      have := abs_nonneg Gu
      rw [hB]; linarith)
    (by
      intro j hj
      rw [p.ea j hj, p.eb j hj, p.ec j hj, p.eP j hj, p.eA j hj, p.eE 0 (by omega), p.eE n le_rfl]
      have Aj := A0 j hj
      have hAj : A j ≤ KA := (le_abs_self _).trans (hA j hj.le)
      have dd : ∀ i, i ≤ n → |d i + dt * q i / S i| ≤ Kd + T * (Kq / e) := by
        intro i hi
        refine (abs_add_le _ _).trans (add_le_add (hd i hi) ((qs i hi).trans ?_))
        exact mul_le_mul_of_nonneg_right dtT (by positivity)
      have d2 : |(d j + dt * q j / S j) - (d (j + 1) + dt * q (j + 1) / S (j + 1))| ≤ 2 * (Kd + T * (Kq / e)) := by
        refine (abs_sub _ _).trans ?_
        have := dd j hj.le
        have := dd (j + 1) hj
        linarith
      have t1 : |mu j / dt * Q j + G j + g * A j * ((d j + dt * q j / S j) - (d (j + 1) + dt * q (j + 1) / S (j + 1)))|
          ≤ mu j / dt * KQ + KG + g * KA * (2 * (Kd + T * (Kq / e))) := by
        refine (abs_add_le _ _).trans (add_le_add ((abs_add_le _ _).trans (add_le_add ?_ (hG j hj.le))) ?_)
        · rw [abs_mul, abs_of_pos (div_pos (mu0 j hj) dt0)]
          exact mul_le_mul_of_nonneg_left (hQ j hj.le) (div_pos (mu0 j hj) dt0).le
        · rw [abs_mul, abs_of_pos (mul_pos g0 Aj)]
          exact mul_le_mul (mul_le_mul_of_nonneg_left hAj g0.le) d2 (abs_nonneg _) (by positivity)
      have t2 : ∀ (y : ℝ) (i : ℕ), i ≤ n → y ≤ 0 → |y| ≤ Ka + Kc →
          (g * A j - y * (S i / dt)) * (r * dt) ≤ g * KA * (r * T) + (Ka + Kc) * KS * r := by
        intro y i hi hy hy'
        have e : (g * A j - y * (S i / dt)) * (r * dt) = g * A j * (r * dt) + |y| * S i * r := by
          rw [abs_of_nonpos hy]; field_simp; ring
        rw [e]
        have hSi : S i ≤ KS := (le_abs_self _).trans (hS i hi)
        have s0 := (S0 i hi).le
        gcongr
      have ta := t2 (a j) 0 (by omega) (a0 j hj) ((ha j hj.le).trans (by linarith))
      have tc := t2 (c j) n le_rfl (c0 j hj) ((hc j hj.le).trans (by linarith))
      have nn : 0 ≤ g * KA * (r * T) + (Ka + Kc) * KS * r := by positivity
      have t3 : L ≤ mu j / dt * (L * T / w) := by
        have := mul_le_mul_of_nonneg_right (muT j hj) (show 0 ≤ L * T / w by positivity)
        have e : w / T * (L * T / w) = L := by field_simp
        rw [e] at this
        exact this
      have t4 : 0 ≤ f j * B := mul_nonneg (f0 j hj) B0
      have t5 : mu j / dt * (KQ + L * T / w) ≤ mu j / dt * B := by
        refine mul_le_mul_of_nonneg_left ?_ (div_pos (mu0 j hj) dt0).le
        rw [hB]
        have := abs_nonneg Gd
        have := abs_nonneg Gu
        linarith
      have e : (a j + (mu j / dt + f j - a j - c j) + c j) * B = mu j / dt * B + f j * B := by ring
      rw [e]
      split_ifs <;> linarith)
  obtain ⟨k1, k2, k3⟩ := key
  have ends : ∀ i, i ≤ n → co.E i * (r * dt) ≤ KS * r := by
    intro i hi
    rw [p.eE i hi]
    have e : S i / dt * (r * dt) = S i * r := by field_simp
    rw [e]
    exact mul_le_mul_of_nonneg_right ((le_abs_self _).trans (hS i hi)) r0
  have bu : |Qu| ≤ B' := k2.trans (by have := ends 0 (by omega); rw [hB']; linarith)
  have bd : |Qd| ≤ B' := k3.trans (by have := ends n le_rfl; rw [hB']; linarith)
  have bQ : ∀ j, j < n → |Q' j| ≤ B' := fun j hj => (k1 j hj).trans (by
    rw [hB']; have : 0 ≤ KS * r := by positivity
    linarith)
  obtain ⟨s1, s2⟩ := hC dt dt0 dtT co p Q' h' Qu Qd SV bQ bu bd
  refine ⟨fun j hj => (s1 j hj).trans ?_, fun j hj => (s2 j hj).trans ?_, bu.trans ?_, bd.trans ?_⟩
  · exact mul_le_mul_of_nonneg_right (by linarith) dt0.le
  · exact mul_le_mul_of_nonneg_right (by linarith) dt0.le
  · linarith
  · linarith

/-! ### Specification -/

variable {m : Model} {geo : Geo} {inp : Inputs} {wk : Work} {s : Hyd} {co : Coef ℝ} {x : ℕ → ℝ}

noncomputable section

/-- The end depths of superlink `k` can be reached from the heads of its superjunctions: they are the head
above the end invert (0 where the head is below it), lowered by the entrance loss of some flow, raised by
the exit loss of some flow. An end with a loss coefficient through which water flows always qualifies. -/
structure Reachable (m : Model) (geo : Geo) (s : Hyd) (k : ℕ) : Prop where
  up : ∃ q, s.h (m.ix.I_1k k) = (if m.z_uk k ≤ s.H (m.Ju k) then s.H (m.Ju k) - m.z_uk k else 0)
    - |s.Qu k| * m.C_uk k / (2 * m.g * geo.A_u k ^ 2) * q
  down : ∃ q, s.h (m.ix.I_1k k + m.ix.nk k) = (if m.z_dk k ≤ s.H (m.Jd k) then s.H (m.Jd k) - m.z_dk k else 0)
    + |s.Qd k| * m.C_dk k / (2 * m.g * geo.A_d k ^ 2) * q

/-- The state fits together: prescribed heads are the present ones, heads are within their limits, end depths
are reachable, and every junction has a free surface. -/
structure Fits (m : Model) (geo : Geo) (inp : Inputs) (s : Hyd) : Prop where
  fixed : ∀ i, i < m.M → m.bc i = true → s.H i = (inp.H_bc.getD s.H) i
  limits : ∀ i, i < m.M → m.z_inv i ≤ s.H i ∧ s.H i ≤ m.z_inv i + m.max_depth i
  A_u : ∀ k, k < m.ix.NK → 0 < geo.A_u k
  A_d : ∀ k, k < m.ix.NK → 0 < geo.A_d k
  ends : ∀ k, k < m.ix.NK → Reachable m geo s k
  wide : ∀ k, k < m.ix.NK → ∀ j, j ≤ m.ix.nk k → 0 < surfaceArea m geo k j

/-- Friction and local loss of link `i` per unit of flow. -/
def resistance (m : Model) (geo : Geo) (s : Hyd) (i : ℕ) : ℝ :=
  (match frictionSlope (s.Q i) (m.dx i) (geo.A i) (geo.R i) (m.n i) (m.method i) m.g with
    | .ok t => t
    | .error _ => 0)
  + if m.ctrl i then m.C i * geo.A i * |s.Q i| / m.A_c i ^ 2 else 0

/-! ### Lemmas -/

theorem resistance_nonneg (ps : PhysicalStep m geo inp) {i : ℕ} (hi : i < m.N) : 0 ≤ resistance m geo s i := by
  unfold resistance
  refine add_nonneg ?_ ?_
  · cases hf : frictionSlope (s.Q i) (m.dx i) (geo.A i) (geo.R i) (m.n i) (m.method i) m.g with
    | error e => exact le_rfl
    | ok t => exact C17_friction_nonneg (ps.dx_pos i hi).le (ps.R_pos i hi) (ps.n_pos i hi) ps.g_pos hf
  · have h1 := ps.C_nonneg i hi
    have h2 := (ps.A_pos i hi).le
    split_ifs
    · positivity
    · exact le_rfl

/-- The coefficients of a pass are made of parts which do not depend on the step size. -/
theorem parts (c : m.Consistent) (hc : StepCoefs m.g m.N (m.linkIn geo inp s s) (m.nodeIn geo inp s) m.nix co)
    {k : ℕ} (hk : k < m.ix.NK) :
    Parts m.g (m.ix.nk k) (fun j => geo.A (m.ix.i_1k k + j)) (fun j => (m.linkIn geo inp s s).a (m.ix.i_1k k + j))
      (fun j => (m.linkIn geo inp s s).c (m.ix.i_1k k + j)) (fun j => geo.sigma (m.ix.i_1k k + j) * m.dx (m.ix.i_1k k + j))
      (fun j => resistance m geo s (m.ix.i_1k k + j))
      (fun j => m.g * geo.A (m.ix.i_1k k + j) * m.S_o (m.ix.i_1k k + j) * m.dx (m.ix.i_1k k + j))
      (fun j => surfaceArea m geo k j) (fun j => inp.Q_0Ik (m.ix.I_1k k + j)) (fun j => s.Q (m.ix.i_1k k + j))
      (fun j => s.h (m.ix.I_1k k + j)) inp.dt (co.slice (m.ix.i_1k k) (m.ix.I_1k k)) := by
  have hN := c.inN k hk
  have nd : ∀ j, j ≤ m.ix.nk k → co.E (m.ix.I_1k k + j) = surfaceArea m geo k j / inp.dt ∧
      co.D (m.ix.I_1k k + j) = inp.Q_0Ik (m.ix.I_1k k + j) + surfaceArea m geo k j / inp.dt * s.h (m.ix.I_1k k + j) := by
    intro j hj
    obtain ⟨eE, eD⟩ := node_coeffs_eq (y := m.nodeIn geo inp s) (c.layout.pos k hk) (c.nodes k hk) hj
    rw [hc.2.1, hc.2.2, eE, eD, surfaceArea_eq]
    exact ⟨rfl, rfl⟩
  refine ⟨fun j hj => ?_, fun j hj => ?_, fun j hj => ?_, fun j hj => ?_, fun j hj => ?_, fun j hj => (nd j hj).1,
    fun j hj => (nd j hj).2⟩
  · exact (hc.1 (m.ix.i_1k k + j) (by omega)).2.2.2.2
  · exact (hc.1 (m.ix.i_1k k + j) (by omega)).1
  · exact (hc.1 (m.ix.i_1k k + j) (by omega)).2.2.1
  · have hb := (hc.1 (m.ix.i_1k k + j) (by omega)).2.1
    simp only [LinkIn.b, bIk] at hb
    show co.b (m.ix.i_1k k + j) = _
    unfold resistance
    cases hf : frictionSlope (s.Q (m.ix.i_1k k + j)) (m.dx (m.ix.i_1k k + j)) (geo.A (m.ix.i_1k k + j))
        (geo.R (m.ix.i_1k k + j)) (m.n (m.ix.i_1k k + j)) (m.method (m.ix.i_1k k + j)) m.g with
    | error e =>
      simp only [Model.linkIn] at hb
      rw [hf] at hb; simp [bind, Except.bind] at hb
    | ok t =>
      have hb' : Except.ok (m.dx (m.ix.i_1k k + j) / inp.dt * geo.sigma (m.ix.i_1k k + j) + t
          + (if m.ctrl (m.ix.i_1k k + j) = true then m.C (m.ix.i_1k k + j) * geo.A (m.ix.i_1k k + j)
            * |s.Q (m.ix.i_1k k + j)| / m.A_c (m.ix.i_1k k + j) ^ 2 else 0)
          - (m.linkIn geo inp s s).a (m.ix.i_1k k + j) - (m.linkIn geo inp s s).c (m.ix.i_1k k + j))
          = (Except.ok (co.b (m.ix.i_1k k + j)) : Except PyErr ℝ) := by
        rw [← hb]
        have hf' : frictionSlope ((m.linkIn geo inp s s).Qnext (m.ix.i_1k k + j)) ((m.linkIn geo inp s s).dx (m.ix.i_1k k + j))
          ((m.linkIn geo inp s s).A (m.ix.i_1k k + j)) ((m.linkIn geo inp s s).R (m.ix.i_1k k + j))
          ((m.linkIn geo inp s s).n (m.ix.i_1k k + j)) ((m.linkIn geo inp s s).method (m.ix.i_1k k + j)) m.g = .ok t := hf
        rw [hf']
        rfl
      injection hb' with hb'
      rw [← hb']
      ring
  · have := (hc.1 (m.ix.i_1k k + j) (by omega)).2.2.2.1
    show co.P (m.ix.i_1k k + j) = _
    rw [this]
    simp only [LinkIn.P, PIk, Model.linkIn]
    ring

/-- One superlink of the model: short steps. -/
theorem short_superlink (c : m.Consistent) (ps : PhysicalStep m geo inp) (ft : Fits m geo inp s) {k : ℕ}
    (hk : k < m.ix.NK) {R : ℝ} (R0 : 0 ≤ R) :
    ∃ C, 0 ≤ C ∧ ∀ dt, 0 < dt → dt ≤ inp.dt → ∀ co,
      StepCoefs m.g m.N (m.linkIn geo { inp with dt := dt } s s) (m.nodeIn geo { inp with dt := dt } s) m.nix co →
      ∀ Hu Hd, |Hu - s.H (m.Ju k)| ≤ R * dt → |Hd - s.H (m.Jd k)| ≤ R * dt →
      ∀ Q h Qu Qd, SaintVenant m.g (co.slice (m.ix.i_1k k) (m.ix.I_1k k)) (m.ix.nk k) Q h Qu Qd →
        h 0 = (m.headCoef geo s k).kappa_u * Qu + (m.headCoef geo s k).lam_u * Hu + (m.headCoef geo s k).mu_u →
        h (m.ix.nk k) = (m.headCoef geo s k).kappa_d * Qd + (m.headCoef geo s k).lam_d * Hd + (m.headCoef geo s k).mu_d →
        (∀ j, j < m.ix.nk k → |Q j - s.Q (m.ix.i_1k k + j)| ≤ C * dt) ∧
        (∀ j, j ≤ m.ix.nk k → |h j - s.h (m.ix.I_1k k + j)| ≤ C * dt) ∧ |Qu| ≤ C ∧ |Qd| ≤ C := by
  have hN := c.inN k hk
  have g0 := ps.g_pos
  have hs := step_headSigns (cur := s) ps hk
  obtain ⟨qu, hqu⟩ := (ft.ends k hk).up
  obtain ⟨qd, hqd⟩ := (ft.ends k hk).down
  have au := ft.A_u k hk
  have ad := ft.A_d k hk
  have e1 : (2 * geo.A_u k ^ 2 * m.g) ≠ 0 := by positivity
  have e2 : (2 * geo.A_d k ^ 2 * m.g) ≠ 0 := by positivity
  obtain ⟨C, C0, hC⟩ := short_pipe (Hu := s.H (m.Ju k)) (Hd := s.H (m.Jd k)) (Gu := qu) (Gd := qd)
    (ku := (m.headCoef geo s k).kappa_u) (kd := (m.headCoef geo s k).kappa_d)
    (lu := (m.headCoef geo s k).lam_u) (ld := (m.headCoef geo s k).lam_d)
    (ou := (m.headCoef geo s k).mu_u) (od := (m.headCoef geo s k).mu_d)
    (A := fun j => geo.A (m.ix.i_1k k + j)) (a := fun j => (m.linkIn geo inp s s).a (m.ix.i_1k k + j))
    (c := fun j => (m.linkIn geo inp s s).c (m.ix.i_1k k + j))
    (mu := fun j => geo.sigma (m.ix.i_1k k + j) * m.dx (m.ix.i_1k k + j))
    (f := fun j => resistance m geo s (m.ix.i_1k k + j))
    (G := fun j => m.g * geo.A (m.ix.i_1k k + j) * m.S_o (m.ix.i_1k k + j) * m.dx (m.ix.i_1k k + j))
    (S := fun j => surfaceArea m geo k j) (q := fun j => inp.Q_0Ik (m.ix.I_1k k + j))
    (Q := fun j => s.Q (m.ix.i_1k k + j)) (d := fun j => s.h (m.ix.I_1k k + j))
    g0 (c.layout.pos k hk) (fun j hj => ps.A_pos _ (by omega))
    (fun j hj => (C17_couplings_nonpos (ps.sigma_pos (m.ix.i_1k k + j) (by omega)).le).1)
    (fun j hj => (C17_couplings_nonpos (ps.sigma_pos (m.ix.i_1k k + j) (by omega)).le).2)
    (fun j hj => mul_pos (ps.sigma_pos _ (by omega)) (ps.dx_pos _ (by omega)))
    (fun j hj => resistance_nonneg ps (by omega)) (ft.wide k hk) hs.ku hs.kd
    (by simp only [Model.headCoef, headCoefZ, theta]; split_ifs <;> simp)
    (by simp only [Model.headCoef, headCoefZ, theta]; split_ifs <;> simp)
    (by
      show s.h (m.ix.I_1k k + 0) = _
      rw [add_zero, hqu]
      simp only [Model.headCoef, headCoefZ, gammaUk, safeDivide_of_ne _ e1, theta, ge_iff_le]
      split_ifs <;> ring)
    (by
      show s.h (m.ix.I_1k k + m.ix.nk k) = _
      rw [hqd]
      simp only [Model.headCoef, headCoefZ, gammaDk, safeDivide_of_ne _ e2, theta, ge_iff_le]
      split_ifs <;> ring)
    ps.dt_pos R0
  exact ⟨C, C0, fun dt dt0 dtT co hco Hu Hd hu hd Q h Qu Qd S h0 hn =>
    hC dt dt0 dtT _ (parts c hco hk) Hu Hd hu hd Q h Qu Qd S h0 hn⟩

/-- The step size set to `dt`, all other inputs as they are. -/
def Inputs.withStep (inp : Inputs) (dt : ℝ) : Inputs := { inp with dt := dt }

theorem physical_withStep (ps : PhysicalStep m geo inp) {dt : ℝ} (dt0 : 0 < dt) :
    PhysicalStep m geo (inp.withStep dt) :=
  ⟨ps.g_pos, dt0, ps.A_pos, ps.R_pos, ps.B_nonneg, ps.sigma_pos, ps.n_pos, ps.dx_pos, ps.C_nonneg, ps.AS_nonneg,
    ps.Bu, ps.Bd, ps.dxu, ps.dxd, ps.Cu, ps.Cd, ps.As, ps.u_p, ps.b_p⟩

/-- What external inflow and controls bring at the present heads. -/
def outside (m : Model) (geo : Geo) (inp : Inputs) (wk : Work) (s : Hyd) (j : ℕ) : ℝ :=
  let net := m.net geo inp wk s ⟨fun _ => 0, fun _ => 0, fun _ => 0, fun _ => 0, fun _ => 0, fun _ => 0, fun _ => 0⟩
  inp.Q_in j + net.orifices.inflow s.H j + net.weirs.inflow s.H j + net.pumps.inflow s.H j

/-- The net inflow at the present heads stays bounded, however short the step. -/
theorem short_inflow (c : m.Consistent) (ps : PhysicalStep m geo inp) (he : m.end_method = .b) (wk : Work)
    (ft : Fits m geo inp s) :
    ∃ W, 0 ≤ W ∧ ∀ dt, 0 < dt → dt ≤ inp.dt → ∀ co,
      StepCoefs m.g m.N (m.linkIn geo (inp.withStep dt) s s) (m.nodeIn geo (inp.withStep dt) s) m.nix co →
      ∑ j ∈ free m, |netInflow m geo (inp.withStep dt) wk s co s.H j| ≤ W := by
  have pipes := fun k (hk : k < m.ix.NK) => short_superlink (R := 0) c ps ft hk le_rfl
  choose! C C0 hC using pipes
  refine ⟨∑ j ∈ free m, (|outside m geo inp wk s j| + ∑ k ∈ Finset.range m.ix.NK, (C k + C k)), ?_, ?_⟩
  · refine Finset.sum_nonneg fun j _ => add_nonneg (abs_nonneg _) (Finset.sum_nonneg fun k hk => ?_)
    have := C0 k (Finset.mem_range.mp hk)
    linarith
  · intro dt dt0 dtT co hco
    refine Finset.sum_le_sum fun j _ => ?_
    have e : netInflow m geo (inp.withStep dt) wk s co s.H j = outside m geo inp wk s j
        + ∑ k ∈ Finset.range m.ix.NK,
          ((if m.Jd k = j then Qdk (m.endRec wk co k) (m.headCoef geo s k) (s.H (m.Ju k)) (s.H (m.Jd k)) else 0)
          - (if m.Ju k = j then Quk (m.endRec wk co k) (m.headCoef geo s k) (s.H (m.Ju k)) (s.H (m.Jd k)) else 0)) := by
      have : netInflow m geo (inp.withStep dt) wk s co s.H j = inp.Q_in j
        + (∑ k ∈ Finset.range m.ix.NK,
          ((if m.Jd k = j then Qdk (m.endRec wk co k) (m.headCoef geo s k) (s.H (m.Ju k)) (s.H (m.Jd k)) else 0)
          - (if m.Ju k = j then Quk (m.endRec wk co k) (m.headCoef geo s k) (s.H (m.Ju k)) (s.H (m.Jd k)) else 0)))
        + (m.net geo (inp.withStep dt) wk s co).orifices.inflow s.H j
        + (m.net geo (inp.withStep dt) wk s co).weirs.inflow s.H j
        + (m.net geo (inp.withStep dt) wk s co).pumps.inflow s.H j := rfl
      rw [this]
      show _ = inp.Q_in j + (m.net geo (inp.withStep dt) wk s co).orifices.inflow s.H j
        + (m.net geo (inp.withStep dt) wk s co).weirs.inflow s.H j
        + (m.net geo (inp.withStep dt) wk s co).pumps.inflow s.H j + _
      ring
    rw [e]
    refine (abs_add_le _ _).trans (add_le_add le_rfl ((Finset.abs_sum_le_sum_abs _ _).trans
      (Finset.sum_le_sum fun k hk => ?_)))
    have hk := Finset.mem_range.mp hk
    obtain ⟨Q, h, S, h0, hn⟩ := solution_exists (wk := wk) c (physical_withStep ps dt0) he hco hk (s.H (m.Ju k)) (s.H (m.Jd k))
    have D0 : DkStar (m.endRec wk co k) (m.headCoef geo s k) ≠ 0 :=
      ne_of_gt (lt_of_lt_of_le zero_lt_one (DkStar_ge_one (step_endSigns c (physical_withStep ps dt0) hco hk)
        (step_headSigns ps hk)))
    have er := C04_end_relations (m.endRec wk co k) (m.headCoef geo s k) (s.H (m.Ju k)) (s.H (m.Jd k)) D0
    obtain ⟨-, -, b1, b2⟩ := hC k hk dt dt0 dtT co hco _ _ (by simp) (by simp) Q h _ _ S
      (h0.trans er.upstream) (hn.trans er.downstream)
    have := C0 k hk
    refine (abs_sub _ _).trans ?_
    refine add_le_add ?_ ?_ <;> split_ifs
    exacts [b2, abs_zero.le.trans this, b1, abs_zero.le.trans this]

/-! ### C153 -/

/-- **C153 (heads), partial.** From a state which fits together: there is a rate, the same for all step sizes
up to `inp.dt`, such that no head moves by more than this rate times the step size. -/
theorem C153_heads_partial (c : m.Consistent) (ps : PhysicalStep m geo inp) (cw : CleanWork m wk.mats)
    (he : m.end_method = .b) (ft : Fits m geo inp s) :
    ∃ R, 0 ≤ R ∧ ∀ dt, 0 < dt → dt ≤ inp.dt → ∀ co x, Pass m geo (inp.withStep dt) wk s s co x →
      ∀ i, i < m.M → |(m.advance geo (inp.withStep dt) wk s co x).H i - s.H i| ≤ R * dt := by
  obtain ⟨W, W0, hW⟩ := short_inflow c ps he wk ft
  obtain ⟨R, R0, hR⟩ := bound_upto (fun i => if i < m.M ∧ m.bc i = false then W / geo.As i else 0) m.M
  refine ⟨R, R0, fun dt dt0 dtT co x p i hi => ?_⟩
  have ps' := physical_withStep ps dt0
  cases hb : m.bc i with
  | true =>
    have e : (m.advance geo (inp.withStep dt) wk s co x).H i = s.H i := by
      rw [C08_step c cw p i hi hb]
      show min (max ((inp.H_bc.getD s.H) i) _) _ = _
      rw [← ft.fixed i hi hb, max_eq_left (ft.limits i hi).1, min_eq_left (ft.limits i hi).2]
    rw [e, sub_self, abs_zero]
    positivity
  | false =>
    have h1 := (C138_moves c ps' cw p ft.fixed ft.limits).trans (mul_le_mul_of_nonneg_left (hW dt dt0 dtT co p.coefs) dt0.le)
    have As := ps.As i hi hb
    have h2 := Finset.single_le_sum (f := fun j => surfaceAt m geo s j
        * |(m.advance geo (inp.withStep dt) wk s co x).H j - s.H j|)
      (fun j hj => by
        have hj := Finset.mem_filter.mp hj
        exact mul_nonneg ((ps'.As j (Finset.mem_range.mp hj.1) hj.2).le.trans (surfaceAt_ge ps' j)) (abs_nonneg _))
      (show i ∈ free m by simp [free, hi, hb])
    have h3 := mul_le_mul_of_nonneg_right (surfaceAt_ge (cur := s) ps' i)
      (abs_nonneg ((m.advance geo (inp.withStep dt) wk s co x).H i - s.H i))
    have h4 : geo.As i * |(m.advance geo (inp.withStep dt) wk s co x).H i - s.H i| ≤ dt * W := h3.trans (h2.trans h1)
    have h5 : |(m.advance geo (inp.withStep dt) wk s co x).H i - s.H i| ≤ W / geo.As i * dt := by
      rw [div_mul_eq_mul_div, le_div_iff₀ As]
      linarith
    have h6 := hR i hi.le
    rw [if_pos ⟨hi, hb⟩] at h6
    exact h5.trans (mul_le_mul_of_nonneg_right ((le_abs_self _).trans h6) dt0.le)

/-- **C153 (whole state), partial.** If moreover the depths at inner junctions lie strictly between `min_depth` and
the limit of their superlink, and the end depths are no less than `min_depth`: for all sufficiently short
steps every head, every depth and every link flow changes by no more than a fixed rate times the step size,
and the end flows stay bounded. -/
theorem C153_state_partial (c : m.Consistent) (ps : PhysicalStep m geo inp)
    (cw : CleanWork m wk.mats) (he : m.end_method = .b) (ft : Fits m geo inp s)
    (inner : ∀ k, k < m.ix.NK → ∀ j, 1 ≤ j → j < m.ix.nk k →
      m.min_depth < s.h (m.ix.I_1k k + j) ∧ s.h (m.ix.I_1k k + j) < m.max_depth_k k)
    (outer : ∀ k, k < m.ix.NK → m.min_depth ≤ s.h (m.ix.I_1k k) ∧ m.min_depth ≤ s.h (m.ix.I_1k k + m.ix.nk k)) :
    ∃ R δ, 0 < δ ∧ ∀ dt, 0 < dt → dt < δ → ∀ co x, Pass m geo (inp.withStep dt) wk s s co x →
      (∀ i, i < m.M → |(m.advance geo (inp.withStep dt) wk s co x).H i - s.H i| ≤ R * dt) ∧
      ∀ k, k < m.ix.NK →
        (∀ j, j ≤ m.ix.nk k → |(m.advance geo (inp.withStep dt) wk s co x).h (m.ix.I_1k k + j) - s.h (m.ix.I_1k k + j)| ≤ R * dt) ∧
        (∀ j, j < m.ix.nk k → |(m.advance geo (inp.withStep dt) wk s co x).Q (m.ix.i_1k k + j) - s.Q (m.ix.i_1k k + j)| ≤ R * dt) ∧
        |(m.advance geo (inp.withStep dt) wk s co x).Qu k| ≤ R ∧ |(m.advance geo (inp.withStep dt) wk s co x).Qd k| ≤ R := by
  obtain ⟨R1, R10, hR1⟩ := C153_heads_partial c ps cw he ft
  have pipes := fun k (hk : k < m.ix.NK) => short_superlink (R := R1) c ps ft hk R10
  choose! C C0 hC using pipes
  obtain ⟨R2, R20, hR2⟩ := bound_upto C m.ix.NK
  -- room to the limits
  have room : ∀ k, k < m.ix.NK → ∃ e, 0 < e ∧ ∀ j, 1 ≤ j → j < m.ix.nk k →
      m.min_depth + e ≤ s.h (m.ix.I_1k k + j) ∧ s.h (m.ix.I_1k k + j) + e ≤ m.max_depth_k k := by
    intro k hk
    obtain ⟨e, e0, h⟩ := least_upto (fun j => if 1 ≤ j ∧ j < m.ix.nk k then
      min (s.h (m.ix.I_1k k + j) - m.min_depth) (m.max_depth_k k - s.h (m.ix.I_1k k + j)) else 1) (m.ix.nk k)
      (fun j _ => by
        split_ifs with h
        · have := inner k hk j h.1 h.2
          exact lt_min (by linarith) (by linarith)
        · exact one_pos)
    refine ⟨e, e0, fun j h1 h2 => ?_⟩
    have := h j h2.le
    rw [if_pos ⟨h1, h2⟩] at this
    exact ⟨by linarith [this.trans (min_le_left _ _)], by linarith [this.trans (min_le_right _ _)]⟩
  choose! e e0 he' using room
  obtain ⟨ε, ε0, hε⟩ := least_upto (fun k => if k < m.ix.NK then e k else 1) m.ix.NK
    (fun k _ => by split_ifs with h; exacts [e0 k h, one_pos])
  have hε : ∀ k, k < m.ix.NK → ε ≤ e k := fun k hk => by have := hε k hk.le; rwa [if_pos hk] at this
  refine ⟨R1 + R2, min inp.dt (ε / (R2 + 1)), lt_min ps.dt_pos (by positivity), fun dt dt0 dtd co x p => ?_⟩
  have dtT : dt ≤ inp.dt := (dtd.trans_le (min_le_left _ _)).le
  have dte : R2 * dt ≤ ε := by
    have h1 := (dtd.trans_le (min_le_right _ _)).le
    rw [le_div_iff₀ (by positivity)] at h1
    linarith
  have ps' := physical_withStep ps dt0
  have hH := hR1 dt dt0 dtT co x p
  refine ⟨fun i hi => (hH i hi).trans (mul_le_mul_of_nonneg_right (by linarith) dt0.le), fun k hk => ?_⟩
  have Ck : C k ≤ R2 := (le_abs_self _).trans (hR2 k hk.le)
  obtain ⟨Q, h, S, h0, hn⟩ := solution_exists (wk := wk) c ps' he p.coefs hk
    ((m.advance geo (inp.withStep dt) wk s co x).H (m.Ju k)) ((m.advance geo (inp.withStep dt) wk s co x).H (m.Jd k))
  have D0 : DkStar (m.endRec wk co k) (m.headCoef geo s k) ≠ 0 :=
    ne_of_gt (lt_of_lt_of_le zero_lt_one (DkStar_ge_one (step_endSigns c ps' p.coefs hk) (step_headSigns ps hk)))
  have er := C04_end_relations (m.endRec wk co k) (m.headCoef geo s k)
    ((m.advance geo (inp.withStep dt) wk s co x).H (m.Ju k)) ((m.advance geo (inp.withStep dt) wk s co x).H (m.Jd k)) D0
  obtain ⟨cQ, ch, cu, cd⟩ := hC k hk dt dt0 dtT co p.coefs _ _ (hH _ (c.Ju k hk)) (hH _ (c.Jd k hk)) Q h _ _ S
    (h0.trans er.upstream) (hn.trans er.downstream)
  have ch : ∀ j, j ≤ m.ix.nk k → |h j - s.h (m.ix.I_1k k + j)| ≤ R2 * dt := fun j hj =>
    (ch j hj).trans (mul_le_mul_of_nonneg_right Ck dt0.le)
  have F := sweptFwd_rel m.g co m.ix wk.f c.layout hk
  have B := sweptBwd_rel m.g co m.ix wk.b c.layout hk
  have ph := physical c ps' p.coefs hk
  have Rel := numbaSolveInternals_spec (sweptFwd m.g co m.ix wk.f) (sweptBwd m.g co m.ix wk.b) m.min_depth
    m.max_depth_k (endDepthU m geo wk s co (m.advance geo (inp.withStep dt) wk s co x).H)
    (endDepthD m geo wk s co (m.advance geo (inp.withStep dt) wk s co x).H) m.ix.i_1k m.ix.I_1k m.ix.nk m.ix.NK m.back
    ⟨s.h, s.Q⟩ c.layout k hk
  have low : ∀ I, (m.advance geo (inp.withStep dt) wk s co x).h I = max m.min_depth
      ((numbaSolveInternals (sweptFwd m.g co m.ix wk.f) (sweptBwd m.g co m.ix wk.b) m.min_depth
        m.max_depth_k (endDepthU m geo wk s co (m.advance geo (inp.withStep dt) wk s co x).H)
        (endDepthD m geo wk s co (m.advance geo (inp.withStep dt) wk s co x).H) m.ix.i_1k m.ix.I_1k m.ix.nk m.ix.NK m.back
        ⟨s.h, s.Q⟩).h I) := by
    intro I
    show (if _ < m.min_depth then m.min_depth else _) = _
    split_ifs with h
    · exact (max_eq_left h.le).symm
    · exact (max_eq_right (not_lt.mp h)).symm
  obtain ⟨sh, sQ⟩ := internals_eq_solution (c.layout.pos k hk) F B (physical_fwdPivots ph F) (physical_bwdPivots ph B)
    (fun j _ h2 => (bwd_signs ph B j h2).2.2.1.ne') Rel S h0 hn
    (fun j h1 h2 => Or.inl (by
      have a := abs_le.mp (ch j h2.le)
      have b := he' k hk j h1 h2
      have d := hε k hk
      have h3 : ¬ h j < m.min_depth := by linarith
      have h4 : ¬ h j > m.max_depth_k k := by linarith
      simp only [clipDepth, if_neg h3, if_neg h4]))
  have depth : ∀ j, j ≤ m.ix.nk k → m.min_depth ≤ s.h (m.ix.I_1k k + j) →
      |(m.advance geo (inp.withStep dt) wk s co x).h (m.ix.I_1k k + j) - s.h (m.ix.I_1k k + j)| ≤ R2 * dt := by
    intro j hj hm
    rw [low]
    rw [show _ = h j from sh j hj]
    have := abs_max_sub_max_le_max m.min_depth (h j) m.min_depth (s.h (m.ix.I_1k k + j))
    rw [max_eq_right hm, sub_self, abs_zero] at this
    exact this.trans (max_le (by positivity) (ch j hj))
  refine ⟨fun j hj => (depth j hj ?_).trans (mul_le_mul_of_nonneg_right (by linarith) dt0.le), fun j hj => ?_,
    cu.trans (by linarith), cd.trans (by linarith)⟩
  · by_cases h1 : j = 0
    · subst h1; exact (outer k hk).1
    · by_cases h2 : j = m.ix.nk k
      · subst h2; exact (outer k hk).2
      · exact (inner k hk j (by omega) (by omega)).1.le
  · have e1 : (m.advance geo (inp.withStep dt) wk s co x).Q (m.ix.i_1k k + j) = Q j := sQ j hj
    rw [e1]
    refine (cQ j hj).trans (mul_le_mul_of_nonneg_right (by linarith) dt0.le)

/-- **C153, refuted where a pipe ends above the water.** A channel with 1 m of water at rest ends 0.5 m above the water of a
superjunction. However short the step, it raises the head of the superjunction by 5 m or more. -/
theorem C153_jump {dt : ℝ} (dt0 : 0 < dt) :
    (∃ o', Calls1 perModel inPlan true (hiddenInputs.withStep dt) (perModel.blank perGiven) o') ∧
    ∀ o', Calls1 perModel inPlan true (hiddenInputs.withStep dt) (perModel.blank perGiven) o' →
      (perModel.blank perGiven).cur.H 1 + 5 ≤ o'.cur.H 1 := by
  have rs : AtRest perModel (perModel.start perGiven) := by
    refine ⟨?_, ?_, ?_, ?_, ?_⟩ <;> intros <;> rfl
  have wet : ∀ I, perModel.min_depth ≤ perGiven.hJ I := fun _ => by norm_num [perModel, inModel, reModel, perGiven]
  have gi : GoodInputs perModel inPlan (hiddenInputs.withStep dt) :=
    ⟨dt0, fun p hp => by simp [perModel, inModel, reModel] at hp, fun a ha => by simp [perModel, inModel, reModel] at ha⟩
  have k1 : (perModel.start perGiven).H 1 = 1 / 2 := by
    norm_num [perModel, inModel, reModel, perGiven, Model.start]
  constructor
  · exact C105_step_succeeds perSound gi true (blankGood wet)
  · rintro o' ⟨Ao, co, x, -, p, rfl⟩
    have p : Pass perModel (perModel.geoOf inPlan (Hidden.fresh perGiven.Ao) Ao (perModel.start perGiven))
      (hiddenInputs.withStep dt) freshWork (perModel.start perGiven) (perModel.start perGiven) co x := p
    have ps := physical_geoOf perSound gi (Hidden.fresh perGiven.Ao) Ao (s := perModel.start perGiven) wet
    have key := C152_perched perConsistent perTables ps (freshClean perModel) rfl perBed p rs
      (fun q hq => by simp [perModel, inModel, reModel] at hq) (k := 0) (by norm_num [perModel, inModel, reModel])
      (by norm_num [perModel, inModel, reModel, perGiven, Model.start]) (by simp [perModel, inModel, reModel])
      (fun k' hk' => by simp [perModel, inModel, reModel] at hk' ⊢; exact hk')
      (by simp [perModel, inModel, reModel]) (by norm_num [perModel, inModel, reModel, perGiven, Model.start])
      (by norm_num [perModel, inModel, reModel, perGiven, Model.start, hiddenInputs, Inputs.withStep])
      (fun j _ => by norm_num [perModel, inModel, reModel, perGiven, Model.start])
      (fun j h1 h2 => by simp [perModel, inModel, reModel] at h2; omega) (fun _ => le_rfl) le_rfl
    show (perModel.start perGiven).H 1 + 5 ≤ min (max (x 1) 0) (0 + 10)
    have sa : surfaceArea perModel (perModel.geoOf inPlan (Hidden.fresh perGiven.Ao) Ao (perModel.start perGiven)) 0 1 = 5 := by
      norm_num [surfaceArea, perModel, inModel, reModel, Model.geoOf, inPlan, rePlan, Section.B, Geometry.topWidth, Geometry.rectOpenB]
    have as : (perModel.geoOf inPlan (Hidden.fresh perGiven.Ao) Ao (perModel.start perGiven)).As 1 = 1 := by
      simp only [Model.geoOf]
      rw [upTo_of_lt _ (by norm_num [perModel, inModel, reModel])]
      norm_num [inPlan, rePlan, Storage.A, Interp.functionalArea, Interp.storageDepth, perModel, inModel, reModel]
    have k2 : 1 / 2 + 5 * 1 / 1 ≤ x 1 := by
      have h : (perModel.start perGiven).H 1 + surfaceArea perModel
        (perModel.geoOf inPlan (Hidden.fresh perGiven.Ao) Ao (perModel.start perGiven)) 0 1 * 1
        / (perModel.geoOf inPlan (Hidden.fresh perGiven.Ao) Ao (perModel.start perGiven)).As 1 ≤ x 1 := key
      rwa [sa, as, k1] at h
    rw [k1]
    refine le_min ((by linarith : (1 : ℝ) / 2 + 5 ≤ x 1).trans (le_max_left _ _)) (by norm_num)

/-! ### Non-vacuity -/

theorem exBumpFitting : Fits (exModel false) exGeo exInp exBump := by
  have k0 : ∀ k, k < (exModel false).ix.NK → k = 0 := fun k hk => by simp only [exModel] at hk; omega
  refine ⟨fun _ _ h => by simp [exModel] at h, fun j _ => by norm_num [exModel, exBump, exStill],
    fun _ _ => by norm_num [exGeo], fun _ _ => by norm_num [exGeo], fun k hk => ?_, fun k hk j _ => ?_⟩
  · obtain rfl := k0 k hk
    have := exBumpFits false
    exact ⟨⟨_, this.up⟩, ⟨_, this.down⟩⟩
  · obtain rfl := k0 k hk
    unfold surfaceArea; simp only [exModel, exGeo]; norm_num; split_ifs <;> norm_num

/-- The pond with a bump at the middle junction meets every hypothesis, and steps of all sizes exist. -/
example : (∃ R δ, 0 < δ ∧ ∀ dt, 0 < dt → dt < δ → ∀ co x, Pass (exModel false) exGeo (exInp.withStep dt) exWork exBump exBump co x →
      |((exModel false).advance exGeo (exInp.withStep dt) exWork exBump co x).h 1 - 4.2| ≤ R * dt) ∧
    ∀ dt, 0 < dt → ∃ co x, Pass (exModel false) exGeo (exInp.withStep dt) exWork exBump exBump co x := by
  constructor
  · obtain ⟨R, δ, δ0, h⟩ := C153_state_partial (exConsistent false) (exPhysical false) (exClean false) rfl
      exBumpFitting
      (fun k hk j h1 h2 => by
        have : k = 0 := by simp only [exModel] at hk; omega
        have : j = 1 := by simp only [exModel] at h2; omega
        subst k j
        norm_num [exModel, exBump])
      (fun k hk => by
        have : k = 0 := by simp only [exModel] at hk; omega
        subst k
        norm_num [exModel, exBump, exBed])
    refine ⟨R, δ, δ0, fun dt dt0 dtd co x p => ?_⟩
    have := ((h dt dt0 dtd co x p).2 0 (by norm_num [exModel])).1 1 (by norm_num [exModel])
    norm_num [exModel, exBump] at this ⊢
    exact this
  · intro dt dt0
    exact C06_step_exists (exConsistent false) (physical_withStep (exPhysical false) dt0) (exClean false) (fun _ _ => Or.inl rfl)

end

end Pipedream.Step
