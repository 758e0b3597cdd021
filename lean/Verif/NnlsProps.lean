import Verif.NnlsModel
import Verif.LsqProps

/-!
# The non-negative least-squares solver and the redundant depth formulas

Properties C93 and C94.
-/

set_option linter.unusedSectionVars false
set_option linter.unusedVariables false

namespace Pipedream.Nnls

open Pipedream.Sweep Pipedream.Topology Pipedream.Lsq

section Lists

variable {α : Type*}

theorem zip_flatMap (f : ℕ → List α) (m : ℕ → ℕ) (l : List ℕ) (h : ∀ k ∈ l, (f k).length = m k) :
    (l.flatMap f).zip (l.flatMap (fun k => List.replicate (m k) k))
      = l.flatMap (fun k => (f k).map (fun x => (x, k))) := by
  induction l with
  | nil => rfl
  | cons k l ih =>
    rw [List.flatMap_cons, List.flatMap_cons, List.flatMap_cons,
      List.zip_append (by rw [h k List.mem_cons_self, List.length_replicate]),
      ih (fun k' hk' => h k' (List.mem_cons_of_mem _ hk'))]
    congr 1
    have hk := h k List.mem_cons_self
    rw [← hk]
    generalize f k = v
    induction v with
    | nil => rfl
    | cons x v ihv => simp only [List.length_cons, List.replicate_succ, List.zip_cons_cons, List.map_cons, ihv]

/-- Selecting block `k` of an array made of blocks. -/
theorem select_block (f : ℕ → List α) {N k : ℕ} (hk : k < N) :
    (((List.range N).flatMap (fun k => (f k).map (fun x => (x, k)))).filter (fun p => p.2 == k)).map (·.1)
      = f k := by
  rw [filter_flatMap']
  have hz : ∀ k', ((f k').map (fun x => (x, k'))).filter (fun p => p.2 == k)
      = if k' = k then (f k).map (fun x => (x, k)) else [] := by
    intro k'
    by_cases h : k' = k
    · subst h
      rw [if_pos rfl, List.filter_eq_self]
      intro p hp
      obtain ⟨x, -, rfl⟩ := List.mem_map.1 hp
      simp
    · rw [if_neg h, List.filter_eq_nil_iff]
      intro p hp
      obtain ⟨x, -, rfl⟩ := List.mem_map.1 hp
      simpa using h
  rw [show (fun k' => ((f k').map (fun x => (x, k'))).filter (fun p => p.2 == k))
      = fun k' => if k' = k then (f k).map (fun x => (x, k)) else [] from funext hz]
  have key : ∀ N, (List.range N).flatMap (fun k' => if k' = k then (f k).map (fun x => (x, k)) else [])
      = if k < N then (f k).map (fun x => (x, k)) else [] := by
    intro N
    induction N with
    | zero => simp
    | succ N ih =>
      rw [List.range_succ, List.flatMap_append, ih]
      simp only [List.flatMap_cons, List.flatMap_nil, List.append_nil]
      by_cases h : N = k
      · subst h; simp
      · rw [if_neg h, List.append_nil]
        by_cases h2 : k < N
        · rw [if_pos h2, if_pos (by omega)]
        · rw [if_neg h2, if_neg (by omega)]
  rw [key, if_pos hk, List.map_map]
  simp [Function.comp_def]

end Lists

variable {K : Type*} [Field K] [LinearOrder K]

theorem pick_blocks (f : ℕ → List K) (m : ℕ → ℕ) {N k : ℕ} (h : ∀ k, k < N → (f k).length = m k) (hk : k < N) :
    pick k ((List.range N).flatMap f) ((List.range N).flatMap (fun k => List.replicate (m k) k)) = f k := by
  unfold pick
  rw [zip_flatMap f m _ (fun k hk => h k (List.mem_range.1 hk))]
  exact select_block f hk

variable {t : Tables} {n J L : ℕ → ℕ}

theorem kk_eq (O : Ordered t n J L) :
    kk t = (List.range t.NK).flatMap (fun k => List.replicate (n k - 1) k) := by
  unfold kk compress
  rw [O.NL_eq, link_mask O _ (fun k j => decide (j < n k - 1)) _ (le_refl _), List.map_flatMap]
  · refine List.flatMap_congr fun k hk => ?_
    have hk := List.mem_range.1 hk
    rw [filter_lt, min_eq_right (by omega), List.map_map]
    refine List.eq_replicate_iff.2 ⟨by simp, ?_⟩
    intro x hx
    obtain ⟨j, hj, rfl⟩ := List.mem_map.1 hx
    have hj := List.mem_range.1 hj
    exact O.ki k hk j (by omega)
  · intro k hk j hj
    apply bool_eq_decide
    rw [Bool.not_eq_true', ← Bool.not_eq_true, O.linkEnd hk hj]
    omega

theorem rowU_eq (O : Ordered t n J L) (a : Arrays K) {k : ℕ} (hk : k < t.NK) :
    rowU t a k = (List.range (n k - 1)).map (fun j => a.U (J k + j)) := by
  unfold rowU lsqU compress
  rw [inner_U O, List.map_flatMap, kk_eq O, pick_blocks _ _ (fun k _ => by simp) hk, List.map_map]
  rfl

theorem rowX_eq (O : Ordered t n J L) (a : Arrays K) {k : ℕ} (hk : k < t.NK) :
    rowX t a k = (List.range (n k - 1)).map (fun j => a.X (J k + (j + 1))) := by
  unfold rowX lsqX compress
  rw [inner_X O, List.map_flatMap, kk_eq O, pick_blocks _ _ (fun k _ => by simp) hk, List.map_map]
  rfl

theorem rowB_eq (O : Ordered t n J L) (a : Arrays K) {k : ℕ} (hk : k < t.NK) :
    rowB t a k = (List.range (n k)).map (fun r => lsqB t a (L k + r)) := by
  unfold rowB compress
  have e : (List.range t.NL).filter (fun i => t.ki i == k) = (List.range (n k)).map (fun r => L k + r) := by
    rw [O.NL_eq, O.L_eq _ (le_refl _), range_blocks, filter_flatMap']
    have hz : ∀ k' ∈ List.range t.NK, ((List.range (n k')).map
        (fun j => (∑ k ∈ Finset.range k', n k) + j)).filter (fun i => t.ki i == k)
        = if k' = k then (List.range (n k)).map (fun r => L k + r) else [] := by
      intro k' hk'
      have hk' := List.mem_range.1 hk'
      rw [← O.L_eq k' hk'.le]
      by_cases h : k' = k
      · subst h
        rw [if_pos rfl, List.filter_eq_self]
        intro p hp
        obtain ⟨x, hx, rfl⟩ := List.mem_map.1 hp
        simp [O.ki k' hk' x (List.mem_range.1 hx)]
      · rw [if_neg h, List.filter_eq_nil_iff]
        intro p hp
        obtain ⟨x, hx, rfl⟩ := List.mem_map.1 hp
        simpa [O.ki k' hk' x (List.mem_range.1 hx)] using h
    rw [List.flatMap_congr hz]
    have key : ∀ N, (List.range N).flatMap (fun k' => if k' = k then (List.range (n k)).map (fun r => L k + r) else [])
        = if k < N then (List.range (n k)).map (fun r => L k + r) else [] := by
      intro N
      induction N with
      | zero => simp
      | succ N ih =>
        rw [List.range_succ, List.flatMap_append, ih]
        simp only [List.flatMap_cons, List.flatMap_nil, List.append_nil]
        by_cases h : N = k
        · subst h; simp
        · rw [if_neg h, List.append_nil]
          by_cases h2 : k < N
          · rw [if_pos h2, if_pos (by omega)]
          · rw [if_neg h2, if_neg (by omega)]
    rw [key, if_pos hk]
  rw [e, List.map_map]
  rfl

theorem getD_map_range {β : Type*} (f : ℕ → β) (d : β) {m i : ℕ} (h : i < m) :
    ((List.range m).map f).getD i d = f i := by
  simp [List.getD, h]

/-- The strides of the flat assignments put the coefficients on the two diagonals. -/
theorem nnlsA_eq (U X : ℕ → K) {n r c : ℕ} (hr : r < n) (hc : c < n - 1) :
    nnlsA n U X r c = lsqA U X r c := by
  obtain ⟨m, rfl⟩ : ∃ m, n = m + 1 := ⟨n - 1, by omega⟩
  have hm : m + 1 - 1 = m := by omega
  rw [hm] at hc
  unfold nnlsA flatA lsqA
  simp only [hm]
  by_cases h1 : r = c
  · subst h1
    have e : r * m + r = (m + 1) * r := by ring
    rw [if_neg, if_pos, if_pos rfl, e, Nat.mul_div_cancel_left _ (by omega)]
    · rw [e]; exact Nat.mul_mod_right _ _
    · rintro ⟨h, h2⟩
      rw [e] at h h2
      -- (m+1) r - m ≡ 1 mod (m+1)
      obtain ⟨q, hq⟩ := Nat.dvd_of_mod_eq_zero h2
      have : (m + 1) * r = (m + 1) * q + m := by omega
      have h3 : (m + 1) * r % (m + 1) = ((m + 1) * q + m) % (m + 1) := by rw [this]
      rw [Nat.mul_mod_right, Nat.mul_add_mod, Nat.mod_eq_of_lt (by omega : m < m + 1)] at h3
      omega
  · rw [if_neg h1]
    by_cases h2 : r = c + 1
    · subst h2
      have e : (c + 1) * m + c - m = (m + 1) * c := by
        have : (c + 1) * m + c = (m + 1) * c + m := by ring
        omega
      rw [if_pos, if_pos rfl, e, Nat.mul_div_cancel_left _ (by omega)]
      refine ⟨by nlinarith, by rw [e]; exact Nat.mul_mod_right _ _⟩
    · rw [if_neg h2, if_neg, if_neg]
      · intro h
        obtain ⟨q, hq⟩ := Nat.dvd_of_mod_eq_zero h
        -- r m + c = (m+1) q, i.e. c - r ≡ 0
        rcases lt_or_gt_of_ne h1 with h3 | h3
        · have : r * m + c = (m + 1) * r + (c - r) := by
            have : (m + 1) * r = r * m + r := by ring
            omega
          rw [this] at hq
          have h4 : ((m + 1) * r + (c - r)) % (m + 1) = ((m + 1) * q) % (m + 1) := by rw [hq]
          rw [Nat.mul_mod_right, Nat.mul_add_mod, Nat.mod_eq_of_lt (by omega)] at h4
          omega
        · have : (r * m + c) + (r - c) = (m + 1) * r := by
            have : (m + 1) * r = r * m + r := by ring
            omega
          rw [hq] at this
          have h4 : ((m + 1) * q + (r - c)) % (m + 1) = ((m + 1) * r) % (m + 1) := by rw [this]
          rw [Nat.mul_mod_right, Nat.mul_add_mod, Nat.mod_eq_of_lt (by omega)] at h4
          omega
      · rintro ⟨h, h'⟩
        obtain ⟨q, hq⟩ := Nat.dvd_of_mod_eq_zero h'
        have hq' : r * m + c = (m + 1) * q + m := by omega
        have hr0 : 1 ≤ r := by
          by_contra h0
          have : r = 0 := by omega
          subst this
          omega
        obtain ⟨s, rfl⟩ : ∃ s, r = s + 1 := ⟨r - 1, by omega⟩
        have e1 : (s + 1) * m + c = s * m + m + c := by ring
        have hq2 : s * m + c = (m + 1) * q := by omega
        rcases lt_trichotomy s c with h3 | h3 | h3
        · have : s * m + c = (m + 1) * s + (c - s) := by
            have : (m + 1) * s = s * m + s := by ring
            omega
          rw [this] at hq2
          have h4 : ((m + 1) * s + (c - s)) % (m + 1) = ((m + 1) * q) % (m + 1) := by rw [hq2]
          rw [Nat.mul_mod_right, Nat.mul_add_mod, Nat.mod_eq_of_lt (by omega)] at h4
          omega
        · omega
        · have : (s * m + c) + (s - c) = (m + 1) * s := by
            have : (m + 1) * s = s * m + s := by ring
            omega
          rw [hq2] at this
          have h4 : ((m + 1) * q + (s - c)) % (m + 1) = ((m + 1) * s) % (m + 1) := by rw [this]
          rw [Nat.mul_mod_right, Nat.mul_add_mod, Nat.mod_eq_of_lt (by omega)] at h4
          omega

variable [IsStrictOrderedRing K]

/-- A consistent system with a non-negative solution is solved exactly. -/
theorem nnls_exact {n : ℕ} {U X b h hs : ℕ → K} (hn : 1 ≤ n) (hU : ∀ c, c < n - 1 → U c ≠ 0)
    (hpos : ∀ c, c < n - 1 → 0 ≤ hs c)
    (hs_eq : ∀ r, r < n → ∑ c ∈ Finset.range (n - 1), lsqA U X r c * hs c = b r)
    (N : IsNNLS n U X b h) : ∀ c, c < n - 1 → h c = hs c := by
  have conv : ∀ v : ℕ → K, ∀ r, r < n → ∑ c ∈ Finset.range (n - 1), nnlsA n U X r c * v c
      = ∑ c ∈ Finset.range (n - 1), lsqA U X r c * v c := by
    intro v r hr
    refine Finset.sum_congr rfl fun c hc => ?_
    rw [nnlsA_eq U X hr (Finset.mem_range.1 hc)]
  have hz : sse n U X b hs = 0 := by
    unfold sse
    refine Finset.sum_eq_zero fun r hr => ?_
    have hr := Finset.mem_range.1 hr
    rw [conv hs r hr, hs_eq r hr, sub_self]; simp
  have hle := N.best hs hpos
  rw [hz] at hle
  have hnn : ∀ r ∈ Finset.range n,
      0 ≤ (∑ c ∈ Finset.range (n - 1), nnlsA n U X r c * h c - b r) ^ 2 := fun r _ => sq_nonneg _
  have h0 : sse n U X b h = 0 := le_antisymm hle (Finset.sum_nonneg hnn)
  have hres := (Finset.sum_eq_zero_iff_of_nonneg hnn).1 h0
  intro c hc
  refine sub_eq_zero.1 (lsqA_inj (U := U) (X := X) (d := fun c => h c - hs c) (p := n - 1) (n := n) (by omega) hU
    (fun r hr => ?_) c hc)
  have e1 := hres r (Finset.mem_range.2 hr)
  have e2 : ∑ c ∈ Finset.range (n - 1), nnlsA n U X r c * h c = b r := by
    have := pow_eq_zero_iff (two_ne_zero) |>.1 e1
    linarith
  rw [conv h r hr] at e2
  have e3 := hs_eq r hr
  calc ∑ c ∈ Finset.range (n - 1), lsqA U X r c * (h c - hs c)
      = ∑ c ∈ Finset.range (n - 1), lsqA U X r c * h c - ∑ c ∈ Finset.range (n - 1), lsqA U X r c * hs c := by
        rw [← Finset.sum_sub_distrib]; exact Finset.sum_congr rfl fun c _ => by ring
    _ = 0 := by rw [e2, e3, sub_self]

/-- The depths of the Saint-Venant solution satisfy the overdetermined system of their superlink. -/
theorem exact_system (O : Ordered t n J L) (a : Arrays K) {k : ℕ} (hk : k < t.NK)
    {g : K} {co : Coef K} {T O' : ℕ → K} (ph : Physical g co (n k))
    (F : FwdRel g co (n k) T (fun j => a.U (J k + j)) (fun j => a.V (J k + j)) (fun j => a.W (J k + j)))
    (B : BwdRel g co (n k) O' (fun j => a.X (J k + j)) (fun j => a.Y (J k + j)) (fun j => a.Z (J k + j)))
    {Q h : ℕ → K} {Qu Qd : K} (S : SaintVenant g co (n k) Q h Qu Qd) (e0 : h 0 = a.hu k)
    (en : h (n k) = a.hd k) :
    ∀ r, r < n k → ∑ c ∈ Finset.range (n k - 1),
      lsqA (fun i => a.U (J k + i)) (fun i => a.X (J k + (i + 1))) r c * h (c + 1) = lsqB t a (L k + r) := by
  have fs := fwd_sound F (physical_fwdPivots ph F) S
  have bs := bwd_sound B (physical_bwdPivots ph B) S
  have hp := O.pos k hk
  intro r hr
  rw [lsqB_eq O a hk hr, lsqA_mul _ _ (fun c => h (c + 1))]
  have f := fs r hr
  have b := bs r hr
  rw [e0] at f
  rw [en] at b
  by_cases hr0 : r = 0
  · subst hr0
    rw [if_pos rfl, if_neg (by omega : ¬ (1 ≤ 0 ∧ 0 - 1 < n k - 1)), sub_zero]
    rw [e0] at b
    by_cases hl : 0 + 1 = n k
    · rw [if_neg (by omega), if_pos hl]
      rw [hl, en] at f
      have : n k - 1 = 0 := by omega
      rw [this]
      rw [Nat.add_zero] at *
      linear_combination b - f
    · rw [if_pos (by omega), if_neg hl, sub_zero]
      simp only [Nat.add_zero, Nat.zero_add] at *
      linear_combination b - f
  · obtain ⟨q, rfl⟩ : ∃ q, r = q + 1 := ⟨r - 1, by omega⟩
    rw [if_neg hr0, add_zero, Nat.add_sub_cancel, if_pos (show 1 ≤ q + 1 ∧ q < n k - 1 by omega)]
    by_cases hl : q + 1 + 1 = n k
    · rw [if_neg (show ¬ q + 1 < n k - 1 by omega), if_pos hl]
      rw [hl, en] at f
      have : n k - 1 = q + 1 := by omega
      rw [this]
      linear_combination b - f
    · rw [if_pos (show q + 1 < n k - 1 by omega), if_neg hl, sub_zero]
      linear_combination b - f

/-- Interior depths of superlink `k`. -/
theorem nnls_inner (O : Ordered t n J L) (a : Arrays K) {k : ℕ} (hk : k < t.NK)
    {g : K} {co : Coef K} {T O' : ℕ → K} (ph : Physical g co (n k))
    (F : FwdRel g co (n k) T (fun j => a.U (J k + j)) (fun j => a.V (J k + j)) (fun j => a.W (J k + j)))
    (B : BwdRel g co (n k) O' (fun j => a.X (J k + j)) (fun j => a.Y (J k + j)) (fun j => a.Z (J k + j)))
    {Q h : ℕ → K} {Qu Qd : K} (S : SaintVenant g co (n k) Q h Qu Qd) (e0 : h 0 = a.hu k)
    (en : h (n k) = a.hd k) (hpos : ∀ j, 1 ≤ j → j < n k → 0 ≤ h j) {hin : ℕ → K} (P : NnlsSolve t a k hin) :
    ∀ c, c < n k - 1 → hin c = h (c + 1) := by
  have hp := O.pos k hk
  unfold NnlsSolve at P
  rw [O.nk hk] at P
  have conv : ∀ r c, c < n k - 1 → lsqA (fun c => (rowU t a k).getD c 0) (fun c => (rowX t a k).getD c 0) r c
      = lsqA (fun i => a.U (J k + i)) (fun i => a.X (J k + (i + 1))) r c := by
    intro r c hc
    unfold lsqA
    simp only [rowU_eq O a hk, rowX_eq O a hk, getD_map_range _ _ hc]
  refine nnls_exact (hs := fun c => h (c + 1)) hp ?_ (fun c hc => hpos _ (by omega) (by omega)) ?_ P
  · intro c hc
    rw [rowU_eq O a hk, getD_map_range _ _ hc]
    exact (fwd_signs ph F c (by omega)).2.2.1.ne
  · intro r hr
    rw [rowB_eq O a hk, getD_map_range _ _ hr, ← exact_system O a hk ph F B S e0 en r hr]
    exact Finset.sum_congr rfl fun c hc => by rw [conv r c (Finset.mem_range.1 hc)]

/-- Position of an interior junction among those of its superlink. -/
theorem rank_inner (O : Ordered t n J L) {k j : ℕ} (hk : k < t.NK) (h1 : 1 ≤ j) (h2 : j < n k) :
    rank (fun I => t.kI I == k && !t.isStart I && !t.isEnd I) (J k + j) = j - 1 := by
  unfold rank
  rw [List.range_add, List.filter_append, List.length_append]
  have hfirst : (List.range (J k)).filter (fun I => t.kI I == k && !t.isStart I && !t.isEnd I) = [] := by
    rw [List.filter_eq_nil_iff]
    intro I hI
    have hI := List.mem_range.1 hI
    rw [O.J_eq k hk.le] at hI
    -- junctions before the block belong to earlier superlinks
    have hmem : I ∈ List.range (∑ k' ∈ Finset.range k, (n k' + 1)) := List.mem_range.2 hI
    rw [range_blocks (fun k => n k + 1)] at hmem
    obtain ⟨k', hk', hx⟩ := List.mem_flatMap.1 hmem
    obtain ⟨q, hq, rfl⟩ := List.mem_map.1 hx
    have hk' := List.mem_range.1 hk'
    have hq := List.mem_range.1 hq
    rw [← O.J_eq k' (by omega), O.kI k' (by omega) q (by omega)]
    simp
    omega
  have hsecond : ((List.range j).map (fun q => J k + q)).filter
      (fun I => t.kI I == k && !t.isStart I && !t.isEnd I)
      = ((List.range j).filter (fun q => decide (0 < q ∧ q < j))).map (fun q => J k + q) := by
    rw [List.filter_map]
    congr 1
    refine List.filter_congr fun q hq => ?_
    have hq := List.mem_range.1 hq
    apply bool_eq_decide
    simp only [Function.comp, O.kI k hk q (by omega), beq_self_eq_true, Bool.true_and]
    rw [Bool.and_eq_true, Bool.not_eq_true', Bool.not_eq_true', ← Bool.not_eq_true,
      ← Bool.not_eq_true, O.isEnd hk (by omega : q ≤ n k), O.isStart hk (by omega : q ≤ n k)]
    omega
  rw [hfirst, hsecond, filter_mid]
  simp

/-- **C93.** Whenever the momentum and continuity equations of a superlink, with its end depths, have a
solution whose interior depths are not negative, the `nnls` solver returns exactly this solution, depths and
flows, whatever the numbers of links of the other superlinks. `hin k` is what `scipy.optimize.nnls`
returned for superlink `k`. -/
theorem C93_nnls_exact (O : Ordered t n J L) (a : Arrays K) (hPrev : ℕ → K) {k : ℕ} (hk : k < t.NK)
    {g : K} {co : Coef K} {T O' : ℕ → K} (ph : Physical g co (n k))
    (F : FwdRel g co (n k) T (fun j => a.U (J k + j)) (fun j => a.V (J k + j)) (fun j => a.W (J k + j)))
    (B : BwdRel g co (n k) O' (fun j => a.X (J k + j)) (fun j => a.Y (J k + j)) (fun j => a.Z (J k + j)))
    {Q h : ℕ → K} {Qu Qd : K} (S : SaintVenant g co (n k) Q h Qu Qd) (e0 : h 0 = a.hu k)
    (en : h (n k) = a.hd k) (hpos : ∀ j, 1 ≤ j → j < n k → 0 ≤ h j)
    {hin : ℕ → ℕ → K} (P : NnlsSolve t a k (hin k)) :
    (∀ j, j ≤ n k → nnlsDepths t a hin hPrev (J k + j) = h j) ∧
    ∀ i, i < n k → nnlsFlows t a (nnlsDepths t a hin hPrev) (L k + i) = Q i := by
  have hp := O.pos k hk
  have inner := nnls_inner O a hk ph F B S e0 en hpos P
  have hloop : ∀ j, 1 ≤ j → j < n k → (forRange t.NK (fun k (hh : ℕ → K) =>
      maskSet (fun I => t.kI I == k && !t.isStart I && !t.isEnd I) (hin k) hh) hPrev) (J k + j) = h j := by
    intro j h1 h2
    have key : ∀ N, N ≤ t.NK → k < N → (forRange N (fun k (hh : ℕ → K) =>
      maskSet (fun I => t.kI I == k && !t.isStart I && !t.isEnd I) (hin k) hh) hPrev) (J k + j) = h j := by
      intro N
      induction N with
      | zero => intro _ h; omega
      | succ N ih =>
        intro hN hkN
        rw [forRange_succ]
        unfold maskSet
        by_cases hkN' : k = N
        · subst hkN'
          rw [if_pos, rank_inner O hk h1 h2, inner _ (by omega)]
          · congr 1; omega
          · rw [Bool.and_eq_true, Bool.and_eq_true, Bool.not_eq_true', Bool.not_eq_true', ← Bool.not_eq_true,
              ← Bool.not_eq_true, O.isEnd hk h2.le, O.isStart hk h2.le, O.kI k hk j h2.le]
            refine ⟨⟨by simp, by omega⟩, by omega⟩
        · rw [if_neg]
          · exact ih (by omega) (by omega)
          · simp [O.kI k hk j h2.le, hkN']
    exact key t.NK (le_refl _) hk
  have hdep : ∀ j, j ≤ n k → nnlsDepths t a hin hPrev (J k + j) = h j := by
    intro j hj
    unfold nnlsDepths maskSet
    by_cases hjn : j = n k
    · rw [if_pos ((O.isEnd hk hj).2 hjn)]
      subst hjn
      rw [rank_mask_junction O t.isEnd n (fun _ _ => le_refl _) (fun k hk j hj => O.isEnd hk hj) hk, en]
    · rw [if_neg (fun e => hjn ((O.isEnd hk hj).1 e))]
      by_cases hj0 : j = 0
      · rw [if_pos ((O.isStart hk hj).2 hj0)]
        subst hj0
        rw [rank_mask_junction O t.isStart (fun _ => 0) (fun _ _ => Nat.zero_le _)
          (fun k hk j hj => O.isStart hk hj) hk, e0]
      · rw [if_neg (fun e => hj0 ((O.isStart hk hj).1 e))]
        exact hloop j (by omega) (by omega)
  refine ⟨hdep, fun i hi => ?_⟩
  have fs := fwd_sound F (physical_fwdPivots ph F) S i hi
  have bs := bwd_sound B (physical_bwdPivots ph B) S i hi
  rw [e0] at fs; rw [en] at bs
  unfold nnlsFlows lsqFlows
  rw [O.Ik k hk i hi, O.ki k hk i hi, hdep i hi.le, Nat.add_assoc, hdep (i + 1) hi]
  linear_combination (-1 / 2 : K) * fs - (1 / 2 : K) * bs

/-- **C93, sign.** Interior depths are never negative, exact solution or not. -/
theorem C93_nonneg (O : Ordered t n J L) (a : Arrays K) (hPrev : ℕ → K) {hin : ℕ → ℕ → K}
    (P : ∀ k, k < t.NK → NnlsSolve t a k (hin k)) {k j : ℕ} (hk : k < t.NK) (h1 : 1 ≤ j) (h2 : j < n k) :
    0 ≤ nnlsDepths t a hin hPrev (J k + j) := by
  have key : ∀ N, N ≤ t.NK → k < N → (forRange N (fun k (hh : ℕ → K) =>
      maskSet (fun I => t.kI I == k && !t.isStart I && !t.isEnd I) (hin k) hh) hPrev) (J k + j) = hin k (j - 1) := by
    intro N
    induction N with
    | zero => intro _ h; omega
    | succ N ih =>
      intro hN hkN
      rw [forRange_succ]
      unfold maskSet
      by_cases hkN' : k = N
      · subst hkN'
        rw [if_pos, rank_inner O hk h1 h2]
        rw [Bool.and_eq_true, Bool.and_eq_true, Bool.not_eq_true', Bool.not_eq_true', ← Bool.not_eq_true,
          ← Bool.not_eq_true, O.isEnd hk h2.le, O.isStart hk h2.le, O.kI k hk j h2.le]
        refine ⟨⟨by simp, by omega⟩, by omega⟩
      · rw [if_neg]
        · exact ih (by omega) (by omega)
        · simp [O.kI k hk j h2.le, hkN']
  have e : nnlsDepths t a hin hPrev (J k + j) = hin k (j - 1) := by
    rw [← key t.NK (le_refl _) hk]
    unfold nnlsDepths
    have he : t.isEnd (J k + j) = false := by
      rw [← Bool.not_eq_true, O.isEnd hk h2.le]; omega
    have hs : t.isStart (J k + j) = false := by
      rw [← Bool.not_eq_true, O.isStart hk h2.le]; omega
    simp only [maskSet, he, hs, Bool.false_eq_true, if_false]
  rw [e]
  have := (P k hk).nonneg
  rw [O.nk hk] at this
  exact this (j - 1) (by omega)

/-! ### C94: depths recovered from flows -/

theorem repeatNk_eq (O : Ordered t n J L) (v : ℕ → K) {k i : ℕ} (hk : k < t.NK) (hi : i < n k) :
    repeatNk t v (L k + i) = v k := by
  unfold repeatNk
  have h := (flatMap_getElem? (fun k => List.replicate (t.nk k) (v k)) t.NK).2 k hk i
    (by simp [O.nk hk, hi])
  have e : ∑ k' ∈ Finset.range k, (List.replicate (t.nk k') (v k')).length = L k := by
    rw [O.L_eq k hk.le]
    refine Finset.sum_congr rfl fun k' hk' => ?_
    have := Finset.mem_range.1 hk'
    rw [List.length_replicate, O.nk (by omega)]
  rw [e] at h
  rw [List.getD, h]
  simp [O.nk hk, hi]

theorem rank_block (O : Ordered t n J L) (mask : ℕ → Bool) (q : ℕ → ℕ → Bool)
    (hq : ∀ k, k < t.NK → ∀ j, j ≤ n k → mask (J k + j) = q k j) {k j : ℕ} (hk : k < t.NK) (hj : j ≤ n k) :
    rank mask (J k + j) = ∑ k' ∈ Finset.range k, ((List.range (n k' + 1)).filter (q k')).length
      + ((List.range j).filter (q k)).length := by
  unfold rank
  rw [List.range_add, List.filter_append, List.length_append]
  congr 1
  · rw [O.J_eq _ hk.le, range_blocks, filter_flatMap', (flatMap_getElem? _ _).1]
    refine Finset.sum_congr rfl fun k' hk' => ?_
    have hk' := Finset.mem_range.1 hk'
    rw [← O.J_eq k' (by omega), List.filter_map, List.length_map]
    congr 1
    refine List.filter_congr fun j hj => ?_
    exact hq k' (by omega) j (by have := List.mem_range.1 hj; omega)
  · rw [List.filter_map, List.length_map]
    congr 1
    refine List.filter_congr fun j' hj' => ?_
    exact hq k hk j' (by have := List.mem_range.1 hj'; omega)

theorem rank_notEnd (O : Ordered t n J L) {k j : ℕ} (hk : k < t.NK) (hj : j < n k) :
    rank (fun I => !t.isEnd I) (J k + j) = L k + j := by
  rw [rank_block O _ (fun k j => decide (j < n k)) _ hk hj.le, O.L_eq k hk.le]
  · congr 1
    · refine Finset.sum_congr rfl fun k' hk' => ?_
      rw [filter_lt, List.length_range, min_eq_right (by omega)]
    · rw [filter_lt, List.length_range, min_eq_left hj.le]
  · intro k hk j hj
    apply bool_eq_decide
    rw [Bool.not_eq_true', ← Bool.not_eq_true, O.isEnd hk hj]
    omega

theorem filter_pos_length : ∀ N, ((List.range N).filter (fun j => decide (0 < j))).length = N - 1 := by
  intro N
  induction N with
  | zero => rfl
  | succ N ih =>
    rw [List.range_succ, List.filter_append, List.length_append, ih]
    by_cases h : 0 < N
    · simp [h]; omega
    · have : N = 0 := by omega
      subst this; rfl

theorem rank_notStart (O : Ordered t n J L) {k j : ℕ} (hk : k < t.NK) (h1 : 1 ≤ j) (hj : j ≤ n k) :
    rank (fun I => !t.isStart I) (J k + j) = L k + (j - 1) := by
  rw [rank_block O _ (fun _ j => decide (0 < j)) _ hk hj, O.L_eq k hk.le, filter_pos_length]
  · congr 1
    refine Finset.sum_congr rfl fun k' hk' => ?_
    rw [filter_pos_length]; omega
  · intro k hk j hj
    apply bool_eq_decide
    rw [Bool.not_eq_true', ← Bool.not_eq_true, O.isStart hk hj]
    omega

/-- **C94.** From the flows of the Saint-Venant solution both directions recover the depths of the solution
(not below the minimum depth): the two arrays returned by `superlink_depth_from_recurrence` agree. -/
theorem C94_depths_from_flows (O : Ordered t n J L) (a : Arrays K) (mn : K) (hB0 hF0 : ℕ → K) {k : ℕ} (hk : k < t.NK)
    {g : K} {co : Coef K} {T O' : ℕ → K} (ph : Physical g co (n k))
    (F : FwdRel g co (n k) T (fun j => a.U (J k + j)) (fun j => a.V (J k + j)) (fun j => a.W (J k + j)))
    (B : BwdRel g co (n k) O' (fun j => a.X (J k + j)) (fun j => a.Y (J k + j)) (fun j => a.Z (J k + j)))
    {Q h : ℕ → K} {Qu Qd : K} (S : SaintVenant g co (n k) Q h Qu Qd) (e0 : h 0 = a.hu k)
    (en : h (n k) = a.hd k) {Qg : ℕ → K} (hQ : ∀ i, i < n k → Qg (L k + i) = Q i) :
    ∀ j, j ≤ n k → depthsB t a mn Qg hB0 (J k + j) = max (h j) mn ∧
      depthsF t a mn Qg hF0 (J k + j) = max (h j) mn := by
  have fs := fwd_sound F (physical_fwdPivots ph F) S
  have bs := bwd_sound B (physical_bwdPivots ph B) S
  intro j hj
  unfold depthsB depthsF maskSet
  by_cases hjn : j = n k
  · have he := (O.isEnd hk hj).2 hjn
    have hr : rank t.isEnd (J k + j) = k := by
      subst hjn
      exact rank_mask_junction O t.isEnd n (fun _ _ => le_refl _) (fun k hk j hj => O.isEnd hk hj) hk
    simp only [he, if_true, hr]
    rw [hjn, en]; exact ⟨rfl, rfl⟩
  have he : t.isEnd (J k + j) = false := by rw [← Bool.not_eq_true, O.isEnd hk hj]; exact hjn
  by_cases hj0 : j = 0
  · have hs := (O.isStart hk hj).2 hj0
    have hr : rank t.isStart (J k + j) = k := by
      subst hj0
      exact rank_mask_junction O t.isStart (fun _ => 0) (fun _ _ => Nat.zero_le _)
          (fun k hk j hj => O.isStart hk hj) hk
    simp only [he, hs, if_true, Bool.false_eq_true, if_false, hr]
    rw [hj0, e0]; exact ⟨rfl, rfl⟩
  have hs : t.isStart (J k + j) = false := by rw [← Bool.not_eq_true, O.isStart hk hj]; exact hj0
  simp only [he, hs, Bool.false_eq_true, if_false, Bool.not_false, if_true]
  have hjlt : j < n k := by omega
  obtain ⟨q, rfl⟩ : ∃ q, j = q + 1 := ⟨j - 1, by omega⟩
  rw [rank_notEnd O hk hjlt, rank_notStart O hk (by omega) hj, Nat.add_sub_cancel]
  constructor
  · congr 1
    unfold depthB
    rw [notEnd_eq O hk hjlt, repeatNk_eq O a.hd hk hjlt, hQ _ hjlt]
    have hX := (bwd_signs ph B (q + 1) hjlt).2.2.1.ne'
    rw [safeDivide_of_ne _ hX, div_eq_iff hX, bs (q + 1) hjlt, en]
    ring
  · congr 1
    have hq : q < n k := by omega
    unfold depthF
    rw [notEnd_eq O hk hq, repeatNk_eq O a.hu hk hq, hQ _ hq]
    have hU := (fwd_signs ph F q hq).2.2.1.ne
    rw [safeDivide_of_ne _ hU, div_eq_iff hU, fs q hq, e0]
    ring

/-- **C94, end depths.** `solve_superlink_depths_alt` inverts the two end relations when their
determinant is not zero. -/
theorem C94_alt_partial {X1 Y1 Z1 UN VN WN hu hd : K} (hdet : X1 * UN - Z1 * WN ≠ 0) :
    endDepthsAlt X1 Y1 Z1 UN VN WN (X1 * hu + Y1 + Z1 * hd) (UN * hd + VN + WN * hu) = (hu, hd) := by
  unfold endDepthsAlt
  simp only [safeDivide_of_ne _ hdet]
  refine Prod.ext ?_ ?_
  · show _ / _ = hu
    rw [div_eq_iff hdet]; ring
  · show _ / _ = hd
    rw [div_eq_iff hdet]; ring

/-- **C94 (what is missing).** The determinant of a superlink of a single link is always zero; its end
depths then come out as zero whatever the flows are. -/
theorem C94_alt_single {g : K} {co : Coef K} {T U V W O' X Y Z : ℕ → K} (ph : Physical g co 1)
    (F : FwdRel g co 1 T U V W) (B : BwdRel g co 1 O' X Y Z) :
    (X 0 * U 0 - Z 0 * W 0 = 0) ∧ ∀ Qu Qd, endDepthsAlt (X 0) (Y 0) (Z 0) (U 0) (V 0) (W 0) Qu Qd = (0, 0) := by
  have hdet : X 0 * U 0 - Z 0 * W 0 = 0 := by
    have hT : T 0 = co.a 0 + co.b 0 + co.c 0 := F.T0
    have hO : O' 0 = co.a 0 + co.b 0 + co.c 0 := B.On
    have hp := (ph.abc_pos 0 (by omega)).ne'
    rw [F.U0, F.W0, B.Xn, B.Zn, U_1k, W_1k, X_Nk, Z_Nk]
    simp only [Nat.sub_self, hT, hO, safeDivide_of_ne _ hp]
    ring
  refine ⟨hdet, fun Qu Qd => ?_⟩
  unfold endDepthsAlt
  simp only [hdet, safeDivide, if_true]

/-! ### Non-vacuity -/

/-- An exact non-negative solution is a non-negative least-squares solution, so `NnlsSolve` can be met. -/
theorem exact_isNNLS {n : ℕ} {U X b hs : ℕ → K} (hpos : ∀ c, c < n - 1 → 0 ≤ hs c)
    (hs_eq : ∀ r, r < n → ∑ c ∈ Finset.range (n - 1), lsqA U X r c * hs c = b r) : IsNNLS n U X b hs := by
  refine ⟨hpos, fun h' _ => ?_⟩
  have hz : sse n U X b hs = 0 := by
    unfold sse
    refine Finset.sum_eq_zero fun r hr => ?_
    have hr := Finset.mem_range.1 hr
    have e : ∑ c ∈ Finset.range (n - 1), nnlsA n U X r c * hs c = b r := by
      rw [← hs_eq r hr]
      exact Finset.sum_congr rfl fun c hc => by rw [nnlsA_eq U X hr (Finset.mem_range.1 hc)]
    rw [e, sub_self]; simp
  rw [hz]
  exact Finset.sum_nonneg fun r _ => sq_nonneg _

/-- Coefficients of a superlink with two links: no advection, unit inertia, areas and storage. -/
def exCo : Coef ℚ := ⟨fun _ => 0, fun _ => 1, fun _ => 0, fun _ => 0, fun _ => 1, fun _ => 1, fun _ => 0⟩

/-- Sweep arrays of the second superlink (junctions 2, 3, 4) of the network `mixed`, whose first superlink
has a different number of links. -/
def exArr : Arrays ℚ where
  U := fun I => if I = 2 then -1 else -2 / 3
  V := fun _ => 0
  W := fun I => if I = 2 then 1 else 1 / 3
  X := fun I => if I = 2 then 2 / 3 else 1
  Y := fun _ => 0
  Z := fun I => if I = 2 then -1 / 3 else -1
  hu := fun _ => 3
  hd := fun _ => 0

theorem ex_phys : Physical (1 : ℚ) exCo 2 := by
  refine ⟨by norm_num, ?_, ?_, ?_, ?_, ?_⟩ <;> intros <;> norm_num [exCo]

theorem ex_fwd : FwdRel (1 : ℚ) exCo 2 (fun j => if j = 0 then 1 else 3 / 2) (fun j => exArr.U (2 + j))
    (fun j => exArr.V (2 + j)) (fun j => exArr.W (2 + j)) where
  T0 := by norm_num [exCo, T_1k]
  U0 := by norm_num [exCo, exArr, U_1k, safeDivide]
  V0 := by norm_num [exCo, exArr, V_1k, safeDivide]
  W0 := by norm_num [exCo, exArr, W_1k, safeDivide]
  Ts := fun j hj => by obtain rfl : j = 0 := by omega
                       norm_num [exCo, exArr, T_ik, safeDivide]
  Us := fun j hj => by obtain rfl : j = 0 := by omega
                       norm_num [exCo, exArr, U_Ik, safeDivide]
  Vs := fun j hj => by obtain rfl : j = 0 := by omega
                       norm_num [exCo, exArr, V_Ik, safeDivide]
  Ws := fun j hj => by obtain rfl : j = 0 := by omega
                       norm_num [exCo, exArr, W_Ik, safeDivide]

theorem ex_bwd : BwdRel (1 : ℚ) exCo 2 (fun j => if j = 0 then 3 / 2 else 1) (fun j => exArr.X (2 + j))
    (fun j => exArr.Y (2 + j)) (fun j => exArr.Z (2 + j)) where
  On := by norm_num [exCo, O_nk]
  Xn := by norm_num [exCo, exArr, X_Nk, safeDivide]
  Yn := by norm_num [exCo, exArr, Y_Nk, safeDivide]
  Zn := by norm_num [exCo, exArr, Z_Nk, safeDivide]
  Os := fun j _ hj => by obtain rfl : j = 0 := by omega
                         norm_num [exCo, exArr, O_ik, safeDivide]
  Xs := fun j _ hj => by obtain rfl : j = 0 := by omega
                         norm_num [exCo, exArr, X_Ik, safeDivide]
  Ys := fun j _ hj => by obtain rfl : j = 0 := by omega
                         norm_num [exCo, exArr, Y_Ik, safeDivide]
  Zs := fun j _ hj => by obtain rfl : j = 0 := by omega
                         norm_num [exCo, exArr, Z_Ik, safeDivide]

/-- Depths 3, 1, 0; flows 2, 1. -/
def exH : ℕ → ℚ := fun j => if j = 0 then 3 else if j = 1 then 1 else 0
def exQ : ℕ → ℚ := fun i => if i = 0 then 2 else 1

theorem ex_sv : SaintVenant (1 : ℚ) exCo 2 exQ exH 5 1 where
  momentum := fun i hi => by interval_cases i <;> norm_num [exCo, exQ, exH, qIn, qOut]
  continuity := fun I hI => by interval_cases I <;> norm_num [exCo, exQ, exH, qIn, qOut]

/-- A non-negative least-squares solution for the second superlink. -/
theorem ex_solve : NnlsSolve mixed exArr 1 (fun c => exH (c + 1)) := by
  have hk : 1 < mixed.NK := by decide
  unfold NnlsSolve
  rw [mixed_ordered.nk hk]
  refine exact_isNNLS (fun c _ => by unfold exH; split_ifs <;> norm_num) fun r hr => ?_
  have hs := exact_system mixed_ordered exArr hk ex_phys ex_fwd ex_bwd ex_sv rfl rfl r hr
  rw [rowB_eq mixed_ordered exArr hk, getD_map_range _ _ hr, ← hs]
  refine Finset.sum_congr rfl fun c hc => ?_
  have hc := Finset.mem_range.1 hc
  unfold lsqA
  simp only [rowU_eq mixed_ordered exArr hk, rowX_eq mixed_ordered exArr hk, getD_map_range _ _ hc]

/-- C93 applies to it although the superlinks have different numbers of links. -/
example (hPrev : ℕ → ℚ) : nnlsDepths mixed exArr (fun _ c => exH (c + 1)) hPrev 3 = 1 ∧
    nnlsFlows mixed exArr (nnlsDepths mixed exArr (fun _ c => exH (c + 1)) hPrev) 1 = 2 := by
  have h := C93_nnls_exact mixed_ordered exArr hPrev (by decide : 1 < mixed.NK) ex_phys ex_fwd ex_bwd ex_sv rfl rfl
    (fun j _ _ => by unfold exH; split_ifs <;> norm_num) (hin := fun _ c => exH (c + 1)) ex_solve
  exact ⟨h.1 1 (by norm_num), h.2 0 (by norm_num)⟩

/-- **C93 (remark).** There is no minimum depth in this solver: with a minimum of 2 the depth 1 stays. -/
theorem C93_no_minimum (hPrev : ℕ → ℚ) :
    nnlsDepths mixed exArr (fun _ c => exH (c + 1)) hPrev 3 < 2 := by
  have h := C93_nnls_exact mixed_ordered exArr hPrev (by decide : 1 < mixed.NK) ex_phys ex_fwd ex_bwd ex_sv rfl rfl
    (fun j _ _ => by unfold exH; split_ifs <;> norm_num) (hin := fun _ c => exH (c + 1)) ex_solve
  have := h.1 1 (by norm_num)
  rw [show (3 : ℕ) = 2 + 1 from rfl]
  rw [show (fun k => if k = 0 then 0 else if k = 1 then 2 else 5 : ℕ → ℕ) 1 + 1 = 2 + 1 from rfl] at this
  rw [this]; norm_num [exH]

/-- C94 applies too. -/
example (hB0 hF0 : ℕ → ℚ) : depthsB mixed exArr 0 (fun i => exQ (i - 1)) hB0 3 = 1 ∧
    depthsF mixed exArr 0 (fun i => exQ (i - 1)) hF0 3 = 1 := by
  have h := C94_depths_from_flows mixed_ordered exArr 0 hB0 hF0 (by decide : 1 < mixed.NK) ex_phys ex_fwd ex_bwd
    ex_sv rfl rfl (Qg := fun i => exQ (i - 1)) (fun i hi => by simp [Nat.add_comm 1 i]) 1 (by norm_num)
  simpa [exH] using h

/-- With a storage in between the determinant of `C94_alt_partial` is not zero. -/
example : exArr.X 2 * exArr.U 3 - exArr.Z 2 * exArr.W 3 ≠ 0 := by norm_num [exArr]

end Pipedream.Nnls
