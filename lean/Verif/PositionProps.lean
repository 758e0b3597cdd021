import Verif.PositionModel
import Verif.ConstructProps

/-!
# C193: junctions lie where the lengths of the links put them
-/

namespace Pipedream.Topology

variable {K : Type*} [Field K] {t : Tables} {n J L : ℕ → ℕ} {dx_uk dx : ℕ → K}

/-! ### Specification -/

/-- Distance of junction `j` of superlink `k` from the upstream superjunction: the upstream end stretch and the links before. -/
def along (L : ℕ → ℕ) (dx_uk dx : ℕ → K) (k j : ℕ) : K := dx_uk k + ∑ j' ∈ Finset.range j, dx (L k + j')

/-- The rows of the superlinks follow one another in the order of the superlink table, in the table of links and in that of
junctions. -/
structure InOrder (t : Tables) (n J L : ℕ → ℕ) : Prop where
  blocks : Blocks t n J L
  junc : ∀ k, k ≤ t.NK → J k = ∑ k' ∈ Finset.range k, (n k' + 1)
  link : ∀ k, k ≤ t.NK → L k = ∑ k' ∈ Finset.range k, n k'
  juncs : J t.NK = t.NI
  links : L t.NK = t.NL

/-! ### Ranks -/

theorem InOrder.shift (O : InOrder t n J L) {k : ℕ} (hk : k ≤ t.NK) : J k = L k + k := by
  rw [O.junc k hk, O.link k hk, Finset.sum_add_distrib]
  simp

theorem InOrder.next (O : InOrder t n J L) {k : ℕ} (hk : k < t.NK) : J (k + 1) = J k + n k + 1 := by
  rw [O.junc k hk.le, O.junc (k + 1) hk, Finset.sum_range_succ]
  omega

theorem InOrder.mono (O : InOrder t n J L) {k k' : ℕ} (h : k ≤ k') (hk' : k' ≤ t.NK) : J k + (k' - k) ≤ J k' := by
  obtain ⟨d, rfl⟩ := Nat.exists_eq_add_of_le h
  induction d with
  | zero => simp
  | succ d ih =>
    have := ih (by omega) (by omega)
    have := O.next (k := k + d) (by omega)
    rw [show k + (d + 1) = k + d + 1 from rfl, this]
    omega

/-- Number of first junctions before place `j` of superlink `k`. -/
theorem InOrder.rank (O : InOrder t n J L) {k j : ℕ} (hk : k < t.NK) (hj : j ≤ n k) :
    maskRank t.isStart (J k + j) = k + if j = 0 then 0 else 1 := by
  have e : (Finset.range (J k + j)).filter (fun I => t.isStart I = true)
      = (Finset.range (k + if j = 0 then 0 else 1)).image J := by
    ext I
    rw [Finset.mem_filter, Finset.mem_image, Finset.mem_range]
    unfold Tables.isStart
    rw [scatter_true]
    constructor
    · rintro ⟨h, k', hk', rfl⟩
      rw [O.blocks.start k' hk'] at h ⊢
      refine ⟨k', ?_, rfl⟩
      rw [Finset.mem_range]
      by_contra hc
      split_ifs at hc with h0
      · have := O.mono (k := k) (k' := k') (by omega) hk'.le; omega
      · have := O.mono (k := k + 1) (k' := k') (by omega) hk'.le
        have := O.next hk
        omega
    · rintro ⟨k', hk', rfl⟩
      rw [Finset.mem_range] at hk'
      have l : k' ≤ k := by split_ifs at hk' <;> omega
      refine ⟨?_, k', by omega, O.blocks.start k' (by omega)⟩
      have := O.mono l hk.le
      split_ifs at hk' <;> omega
  unfold maskRank
  rw [e, Finset.card_image_of_injOn, Finset.card_range]
  intro a ha b hb h
  simp only [Finset.coe_range, Set.mem_Iio] at ha hb
  have a1 : a < t.NK := by split_ifs at ha <;> omega
  have b1 : b < t.NK := by split_ifs at hb <;> omega
  rcases lt_trichotomy a b with c | c | c
  · have := O.mono c.le b1.le; omega
  · exact c
  · have := O.mono c.le a1.le; omega

theorem InOrder.ranks (O : InOrder t n J L) : maskRank t.isStart t.NI = t.NK := by
  rcases Nat.eq_zero_or_pos t.NK with z | p
  · have : t.NI = 0 := by
      rw [← O.juncs, O.junc _ le_rfl, z]; simp
    rw [this, z]; simp [maskRank]
  · have h := O.next (k := t.NK - 1) (by omega)
    have r := O.rank (k := t.NK - 1) (j := n (t.NK - 1)) (by omega) le_rfl
    have p1 := O.blocks.pos (t.NK - 1) (by omega)
    rw [if_neg (by omega)] at r
    have e : t.NI = J (t.NK - 1) + n (t.NK - 1) + 1 := by
      rw [← O.juncs, ← h]; congr 1; omega
    have s : t.isStart (J (t.NK - 1) + n (t.NK - 1)) = false := by
      by_contra hc
      have := (O.blocks.isStart (k := t.NK - 1) (j := n (t.NK - 1)) (by omega) le_rfl).mp (by simpa using hc)
      omega
    rw [e]
    unfold maskRank at r ⊢
    rw [Finset.range_add_one, Finset.filter_insert, if_neg (by simp [s]), r]
    omega

/-- The other junctions are all those that are not first. -/
theorem rank_not (mask : ℕ → Bool) (I : ℕ) : maskRank (fun I => !mask I) I + maskRank mask I = I := by
  unfold maskRank
  rw [add_comm]
  have := Finset.card_filter_add_card_filter_not (s := Finset.range I) (fun I' => mask I' = true)
  simpa using this

theorem InOrder.cumsum (O : InOrder t n J L) {k j : ℕ} (hk : k < t.NK) (hj : j < n k) :
    groupCumsum t.ki dx (L k + j) = ∑ j' ∈ Finset.range (j + 1), dx (L k + j') := by
  unfold groupCumsum
  have e : (Finset.range (L k + j + 1)).filter (fun i' => t.ki i' = t.ki (L k + j))
      = (Finset.range (j + 1)).image (L k + ·) := by
    ext i
    rw [Finset.mem_filter, Finset.mem_image, Finset.mem_range, O.blocks.ki k hk j hj]
    constructor
    · rintro ⟨h, e⟩
      obtain ⟨k', hk', j', hj', rfl⟩ := O.blocks.links i (h.trans_le (by have := O.blocks.link_lt k hk j hj; omega))
      rw [O.blocks.ki k' hk' j' hj'] at e
      subst e
      exact ⟨j', Finset.mem_range.mpr (by omega), rfl⟩
    · rintro ⟨j', hj', rfl⟩
      rw [Finset.mem_range] at hj'
      exact ⟨by omega, O.blocks.ki k hk j' (by omega)⟩
  rw [e, Finset.sum_image (fun a _ b _ h => by simpa using h)]

/-- The positions, entry by entry. -/
theorem positions_eq (dx_uk dx : ℕ → K) (h1 : t.NL = maskRank (fun I => !t.isStart I) t.NI) (h2 : t.NK = maskRank t.isStart t.NI) :
    t.positions dx_uk dx = some (fun I => if I < t.NI ∧ t.isStart I = true then
      dx_uk (if t.NK = 1 then 0 else maskRank t.isStart I) else if I < t.NI ∧ (!t.isStart I) = true then
        (fun i => groupCumsum t.ki dx i + dx_uk (t.ki i)) (if t.NL = 1 then 0 else maskRank (fun I => !t.isStart I) I) else 0) := by
  rw [Tables.positions, maskAssign, if_pos (Or.inl h1)]
  simp only [maskAssign]
  rw [if_pos (Or.inl h2)]

/-! ### C193 -/

/-- **C193 (tables in order).** If the superlinks follow one another in the tables, every junction is at the length of the upstream
end stretch and the links before it, and the two ends of each link are its length apart. Missing: tables with the superlinks in another
order, for which it fails (`C193_turned`). -/
theorem C193_positions_partial (O : InOrder t n J L) :
    ∃ x, t.positions dx_uk dx = some x ∧ (∀ k, k < t.NK → ∀ j, j ≤ n k → x (J k + j) = along L dx_uk dx k j) ∧
      ∀ i, i < t.NL → x (t.Ip1k i) - x (t.Ik i) = dx i := by
  have c := rank_not t.isStart t.NI
  have cJ := O.shift le_rfl
  rw [O.juncs, O.links] at cJ
  rw [O.ranks] at c
  have h1 : t.NL = maskRank (fun I => !t.isStart I) t.NI := by omega
  have h2 : t.NK = maskRank t.isStart t.NI := O.ranks.symm
  have ex := positions_eq dx_uk dx h1 h2
  have all : ∀ k, k < t.NK → ∀ j, j ≤ n k → (fun I => if I < t.NI ∧ t.isStart I = true then
      dx_uk (if t.NK = 1 then 0 else maskRank t.isStart I) else if I < t.NI ∧ (!t.isStart I) = true then
        (fun i => groupCumsum t.ki dx i + dx_uk (t.ki i)) (if t.NL = 1 then 0 else maskRank (fun I => !t.isStart I) I) else 0) (J k + j)
        = along L dx_uk dx k j := by
    intro k hk j hj
    have lt := O.blocks.junc_lt k hk j hj
    have r := O.rank hk hj
    have rn := rank_not t.isStart (J k + j)
    have s := O.blocks.isStart hk hj
    have sh := O.shift hk.le
    dsimp only
    rcases Nat.eq_zero_or_pos j with rfl | j0
    · rw [if_pos ⟨lt, s.mpr rfl⟩, r, along]
      simp only [if_true, add_zero, Finset.range_zero, Finset.sum_empty]
      congr 1
      split_ifs <;> omega
    · have s' : t.isStart (J k + j) = false := by
        by_contra hc
        have := s.mp (by simpa using hc)
        omega
      rw [if_neg (by simp [s']), if_pos ⟨lt, by simp [s']⟩]
      rw [r, if_neg (by omega)] at rn
      have place : (if t.NL = 1 then 0 else maskRank (fun I => !t.isStart I) (J k + j)) = L k + (j - 1) := by
        have := O.blocks.link_lt k hk (j - 1) (by omega)
        split_ifs <;> omega
      rw [place, O.cumsum hk (by omega), O.blocks.ki k hk (j - 1) (by omega), along, show j - 1 + 1 = j by omega, add_comm]
  generalize (fun I => if I < t.NI ∧ t.isStart I = true then
      dx_uk (if t.NK = 1 then 0 else maskRank t.isStart I) else if I < t.NI ∧ (!t.isStart I) = true then
        (fun i => groupCumsum t.ki dx i + dx_uk (t.ki i)) (if t.NL = 1 then 0 else maskRank (fun I => !t.isStart I) I) else 0) = x at *
  refine ⟨x, ex, all, fun i hi => ?_⟩
  obtain ⟨k, hk, j, hj, rfl⟩ := O.blocks.links i hi
  rw [O.blocks.Ip1k k hk j hj, O.blocks.Ik k hk j hj, show J k + j + 1 = J k + (j + 1) from rfl, all k hk (j + 1) hj,
    all k hk j hj.le, along, along, Finset.sum_range_succ]
  ring

theorem generated_inOrder (m NK : ℕ) (hm : 1 ≤ m) :
    InOrder (generated m NK) (fun _ => m) (fun k => k * (m + 1)) (fun k => m * k) where
  blocks := C48_generated_blocks m NK hm
  junc k _ := by simp
  link k _ := by simp [mul_comm]
  juncs := mul_comm _ _
  links := rfl

/-- **C193 (generated tables).** For a model with generated internals the junctions are equally spaced from the end of the upstream
stretch on. -/
theorem C193_generated (m NK : ℕ) (hm : 1 ≤ m) {len : ℕ → K} (hl : ∀ k, k < NK → ∀ j, j < m → dx (m * k + j) = len k / m) :
    ∃ x, (generated m NK).positions dx_uk dx = some x ∧
      ∀ k, k < NK → ∀ j, j ≤ m → x (k * (m + 1) + j) = dx_uk k + j * (len k / m) := by
  obtain ⟨x, e, h, -⟩ := C193_positions_partial (dx_uk := dx_uk) (dx := dx) (generated_inOrder m NK hm)
  refine ⟨x, e, fun k hk j hj => ?_⟩
  rw [h k hk j hj, along, Finset.sum_congr rfl fun j' hj' => hl k hk j' (by rw [Finset.mem_range] at hj'; omega)]
  simp

/-! ### Tables in another order -/

/-- Two superlinks of one link each; the junctions of the first come after those of the second. -/
def turned : Tables where
  NK := 2
  NI := 4
  NL := 2
  Ik := fun i => if i = 0 then 2 else 0
  Ip1k := fun i => if i = 0 then 3 else 1
  ki := fun i => i
  kI := fun I => if I < 2 then 1 else 0
  start := fun k => if k = 0 then 2 else 0
  fin := fun k => if k = 0 then 3 else 1

theorem turned_blocks : Blocks turned (fun _ => 1) (fun k => if k = 0 then 2 else 0) (fun k => k) := by
  refine ⟨?_, ?_, ?_, ?_, ?_, ?_, ?_, ?_, ?_, fun i hi => ⟨i, hi, 0, by omega, by omega⟩⟩ <;> simp only [turned] <;> intros <;>
    first | trivial | omega | (split_ifs <;> first | rfl | omega)

/-- **C193 (another order).** The tables of links and junctions are sound, but the positions are taken from the rows in their order:
each superlink has the positions of the other, and they are right only if the two have the same lengths. -/
theorem C193_turned :
    ∃ x, turned.positions dx_uk dx = some x ∧ x 0 = dx_uk 0 ∧ x 1 = dx 0 + dx_uk 0 ∧ x 2 = dx_uk 1 ∧ x 3 = dx 1 + dx_uk 1 ∧
      ((∀ k, k < 2 → ∀ j, j ≤ 1 → x ((if k = 0 then 2 else 0) + j) = along (fun k => k) dx_uk dx k j) ↔
        dx_uk 0 = dx_uk 1 ∧ dx 0 = dx 1) := by
  have s : ∀ I, turned.isStart I = decide (I = 2 ∨ I = 0) := by
    intro I
    have := scatter_true (n := turned.NK) (idx := turned.start) (I := I)
    rw [Bool.eq_iff_iff, Tables.isStart, this, decide_eq_true_iff]
    simp only [turned]
    constructor
    · rintro ⟨i, hi, h⟩
      split_ifs at h <;> omega
    · rintro (h | h)
      · exact ⟨0, by omega, by simp [h]⟩
      · exact ⟨1, by omega, by simp [h]⟩
  have r : ∀ I, maskRank turned.isStart I = ((Finset.range I).filter fun I' => I' = 2 ∨ I' = 0).card := by
    intro I; unfold maskRank; simp only [s, decide_eq_true_iff]
  have r' : ∀ I, maskRank (fun I => !turned.isStart I) I = ((Finset.range I).filter fun I' => ¬ (I' = 2 ∨ I' = 0)).card := by
    intro I; unfold maskRank; simp only [s, Bool.not_eq_true', decide_eq_false_iff_not]
  have g : ∀ i, groupCumsum turned.ki dx i = dx i := by
    intro i
    unfold groupCumsum
    have : (Finset.range (i + 1)).filter (fun i' => turned.ki i' = turned.ki i) = {i} := by
      ext j; simp [turned]
    rw [this, Finset.sum_singleton]
  have e := positions_eq (t := turned) dx_uk dx (by rw [r']; rfl) (by rw [r]; rfl)
  refine ⟨_, e, ?_⟩
  have N : turned.NI = 4 ∧ turned.NK = 2 ∧ turned.NL = 2 := ⟨rfl, rfl, rfl⟩
  have a0 : maskRank turned.isStart 0 = 0 := by rw [r]; rfl
  have a2 : maskRank turned.isStart 2 = 1 := by rw [r]; rfl
  have b1 : maskRank (fun I => !turned.isStart I) 1 = 0 := by rw [r']; rfl
  have b3 : maskRank (fun I => !turned.isStart I) 3 = 1 := by rw [r']; rfl
  have s0 : turned.isStart 0 = true := by rw [s]; rfl
  have s1 : turned.isStart 1 = false := by rw [s]; rfl
  have s2 : turned.isStart 2 = true := by rw [s]; rfl
  have s3 : turned.isStart 3 = false := by rw [s]; rfl
  have k0 : turned.ki 0 = 0 := rfl
  have k1 : turned.ki 1 = 1 := rfl
  simp only [g, N.1, N.2.1, N.2.2]
  refine ⟨by simp [s0, a0], by simp [s1, b1, k0], by simp [s2, a2], by simp [s3, b3, k1], ?_⟩
  constructor
  · intro h
    have h0 := h 0 (by omega) 0 (by omega)
    have h1 := h 0 (by omega) 1 le_rfl
    simp [along, s2, a2] at h0
    simp [along, s3, b3, k1] at h1
    rw [h0, add_comm] at h1
    exact ⟨h0.symm, (add_left_cancel h1).symm⟩
  · rintro ⟨h0, h1⟩ k hk j hj
    obtain rfl | rfl : k = 0 ∨ k = 1 := by omega
    all_goals obtain rfl | rfl : j = 0 ∨ j = 1 := by omega
    · simp [along, s2, a2, h0]
    · simp [along, s3, b3, k1, h0, h1, add_comm]
    · simp [along, s0, a0, h0]
    · simp [along, s1, b1, k0, h0, h1, add_comm]

/-! ### A case meeting the hypotheses -/

/-- Three superlinks with four links each, the second of them 20 long behind an end stretch of 3. -/
example : ∃ x : ℕ → ℚ, (generated 4 3).positions (fun k => if k = 1 then 3 else 0) (fun i => if i / 4 = 1 then 5 else 1) = some x ∧
    x 7 = 13 := by
  obtain ⟨x, e, h⟩ := C193_generated (dx_uk := fun k => if k = 1 then (3 : ℚ) else 0) (dx := fun i => if i / 4 = 1 then 5 else 1) 4 3
    (by norm_num) (len := fun k => if k = 1 then 20 else 4) (fun k hk j hj => by
      have : (4 * k + j) / 4 = k := by omega
      rw [this]; split_ifs <;> norm_num)
  exact ⟨x, e, by rw [h 1 (by norm_num) 2 (by norm_num)]; norm_num⟩

end Pipedream.Topology
