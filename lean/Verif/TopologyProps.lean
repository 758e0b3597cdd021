import Verif.TopologyModel
import Verif.LinkProps
import Verif.StepModel
import Mathlib.Data.List.GetD
import Mathlib.Data.List.MinMax

/-!
# Properties of construction: C47, C48, C60 and the consistency assumptions of the step theorems
-/

namespace Pipedream.Topology

open Pipedream.Sweep Pipedream.Link

/-! ### Fancy assignment -/

theorem scatter_other {α : Type*} {n : ℕ} {idx : ℕ → ℕ} {val a : ℕ → α} {I : ℕ}
    (h : ∀ i, i < n → idx i ≠ I) : scatter n idx val a I = a I := by
  unfold scatter
  refine forRange_inv (fun k (b : ℕ → α) => b I = a I) n _ a rfl ?_
  intro k hk b hb
  rw [upd_other _ _ (Ne.symm (h k hk))]
  exact hb

theorem scatter_at {α : Type*} {n : ℕ} {idx : ℕ → ℕ} {val a : ℕ → α} {i : ℕ} (hi : i < n)
    (h : ∀ j, j < n → idx j = idx i → val j = val i) : scatter n idx val a (idx i) = val i := by
  induction n with
  | zero => exact absurd hi (by omega)
  | succ n ih =>
    show upd (scatter n idx val a) (idx n) (val n) (idx i) = val i
    by_cases hni : idx n = idx i
    · rw [← hni, upd_same]; exact h n (Nat.lt_succ_self _) hni
    · rw [upd_other _ _ (Ne.symm hni)]
      have : i ≠ n := fun e => hni (by rw [e])
      exact ih (by omega) (fun j hj => h j (by omega))

theorem scatter_true {n : ℕ} {idx : ℕ → ℕ} {I : ℕ} :
    scatter n idx (fun _ => true) (fun _ => false) I = true ↔ ∃ i, i < n ∧ idx i = I := by
  constructor
  · intro h
    by_contra hc
    rw [scatter_other (fun i hi e => hc ⟨i, hi, e⟩)] at h
    exact absurd h (by simp)
  · rintro ⟨i, hi, rfl⟩
    exact scatter_at hi (fun _ _ _ => rfl)

/-! ### Tables in which each superlink occupies consecutive rows -/

/-- Specification of a link/junction table: superlink `k` has `n k ≥ 1` links in rows
`L k … L k + n k - 1` and `n k + 1` junctions in rows `J k … J k + n k`; link `j` joins junction `j` to
junction `j+1`; nothing else is in the tables. -/
structure Blocks (t : Tables) (n J L : ℕ → ℕ) : Prop where
  pos : ∀ k, k < t.NK → 1 ≤ n k
  start : ∀ k, k < t.NK → t.start k = J k
  fin : ∀ k, k < t.NK → t.fin k = J k + n k
  link_lt : ∀ k, k < t.NK → ∀ j, j < n k → L k + j < t.NL
  Ik : ∀ k, k < t.NK → ∀ j, j < n k → t.Ik (L k + j) = J k + j
  Ip1k : ∀ k, k < t.NK → ∀ j, j < n k → t.Ip1k (L k + j) = J k + j + 1
  ki : ∀ k, k < t.NK → ∀ j, j < n k → t.ki (L k + j) = k
  junc_lt : ∀ k, k < t.NK → ∀ j, j ≤ n k → J k + j < t.NI
  kI : ∀ k, k < t.NK → ∀ j, j ≤ n k → t.kI (J k + j) = k
  links : ∀ i, i < t.NL → ∃ k, k < t.NK ∧ ∃ j, j < n k ∧ i = L k + j

variable {t : Tables} {n J L : ℕ → ℕ}

theorem Blocks.junc_inj (B : Blocks t n J L) {k k' j j' : ℕ} (hk : k < t.NK) (hk' : k' < t.NK)
    (hj : j ≤ n k) (hj' : j' ≤ n k') (e : J k + j = J k' + j') : k = k' ∧ j = j' := by
  have h1 := B.kI k hk j hj
  rw [e, B.kI k' hk' j' hj'] at h1
  subst h1
  exact ⟨rfl, by omega⟩

theorem Blocks.link_inj (B : Blocks t n J L) {k k' j j' : ℕ} (hk : k < t.NK) (hk' : k' < t.NK)
    (hj : j < n k) (hj' : j' < n k') (e : L k + j = L k' + j') : k = k' ∧ j = j' := by
  have h1 := B.ki k hk j hj
  rw [e, B.ki k' hk' j' hj'] at h1
  subst h1
  exact ⟨rfl, by omega⟩

theorem Blocks.isStart (B : Blocks t n J L) {k j : ℕ} (hk : k < t.NK) (hj : j ≤ n k) :
    t.isStart (J k + j) = true ↔ j = 0 := by
  unfold Tables.isStart
  rw [scatter_true]
  constructor
  · rintro ⟨k', hk', e⟩
    rw [B.start k' hk'] at e
    exact (B.junc_inj (j := 0) hk' hk (Nat.zero_le _) hj (by omega)).2.symm
  · rintro rfl
    exact ⟨k, hk, by rw [B.start k hk]; rfl⟩

theorem Blocks.isEnd (B : Blocks t n J L) {k j : ℕ} (hk : k < t.NK) (hj : j ≤ n k) :
    t.isEnd (J k + j) = true ↔ j = n k := by
  unfold Tables.isEnd
  rw [scatter_true]
  constructor
  · rintro ⟨k', hk', e⟩
    rw [B.fin k' hk'] at e
    obtain ⟨rfl, h⟩ := B.junc_inj hk' hk (le_refl _) hj e
    exact h.symm
  · rintro rfl
    exact ⟨k, hk, B.fin k hk⟩

/-- Which links start at a junction. -/
theorem Blocks.Ik_eq (B : Blocks t n J L) {k j i : ℕ} (hk : k < t.NK) (hj : j ≤ n k)
    (hi : i < t.NL) (e : t.Ik i = J k + j) : j < n k ∧ i = L k + j := by
  obtain ⟨k', hk', j', hj', rfl⟩ := B.links i hi
  rw [B.Ik k' hk' j' hj'] at e
  obtain ⟨rfl, rfl⟩ := B.junc_inj hk' hk hj'.le hj e
  exact ⟨hj', rfl⟩

/-- Which links end at a junction. -/
theorem Blocks.Ip1k_eq (B : Blocks t n J L) {k j i : ℕ} (hk : k < t.NK) (hj : j ≤ n k)
    (hi : i < t.NL) (e : t.Ip1k i = J k + j) : 1 ≤ j ∧ i = L k + (j - 1) := by
  obtain ⟨k', hk', j', hj', rfl⟩ := B.links i hi
  rw [B.Ip1k k' hk' j' hj', Nat.add_assoc] at e
  obtain ⟨rfl, rfl⟩ := B.junc_inj hk' hk hj' hj e
  exact ⟨by omega, by omega⟩

theorem Blocks.forwardII (B : Blocks t n J L) {k j : ℕ} (hk : k < t.NK) (hj : j < n k) :
    t.forwardII (J k + j) = J k + j + 1 := by
  unfold Tables.forwardII
  rw [← B.Ik k hk j hj, scatter_at (B.link_lt k hk j hj), B.Ip1k k hk j hj, B.Ik k hk j hj]
  intro i hi e
  rw [B.Ik k hk j hj] at e
  obtain ⟨_, rfl⟩ := B.Ik_eq hk hj.le hi e
  rfl

theorem Blocks.backwardII (B : Blocks t n J L) {k j : ℕ} (hk : k < t.NK) (hj : j < n k) :
    t.backwardII (J k + j + 1) = J k + j := by
  unfold Tables.backwardII
  rw [← B.Ip1k k hk j hj, scatter_at (B.link_lt k hk j hj), B.Ik k hk j hj]
  intro i hi e
  rw [B.Ip1k k hk j hj, Nat.add_assoc] at e
  obtain ⟨_, rfl⟩ := B.Ip1k_eq hk hj hi e
  rfl

theorem Blocks.forwardIi0 (B : Blocks t n J L) {k j : ℕ} (hk : k < t.NK) (hj : j < n k) :
    t.forwardIi0 (J k + j) = L k + j := by
  unfold Tables.forwardIi0
  rw [← B.Ik k hk j hj, scatter_at (B.link_lt k hk j hj)]
  intro i hi e
  rw [B.Ik k hk j hj] at e
  exact (B.Ik_eq hk hj.le hi e).2

theorem Blocks.backwardIi0 (B : Blocks t n J L) {k j : ℕ} (hk : k < t.NK) (hj : j < n k) :
    t.backwardIi0 (J k + j + 1) = L k + j := by
  unfold Tables.backwardIi0
  rw [← B.Ip1k k hk j hj, scatter_at (B.link_lt k hk j hj)]
  intro i hi e
  rw [B.Ip1k k hk j hj, Nat.add_assoc] at e
  obtain ⟨_, h⟩ := B.Ip1k_eq hk hj hi e
  rw [h]; rfl

theorem Blocks.forwardIi (B : Blocks t n J L) {k j : ℕ} (hk : k < t.NK) (hj : j < n k) :
    t.forwardIi (J k + j) = L k + j := by
  unfold Tables.forwardIi
  rw [scatter_other, B.forwardIi0 hk hj]
  intro k' hk' e
  rw [B.fin k' hk'] at e
  obtain ⟨rfl, h⟩ := B.junc_inj hk' hk (le_refl _) hj.le e
  omega

theorem Blocks.backwardIi (B : Blocks t n J L) {k j : ℕ} (hk : k < t.NK) (hj : j < n k) :
    t.backwardIi (J k + j + 1) = L k + j := by
  unfold Tables.backwardIi
  rw [scatter_other, B.backwardIi0 hk hj]
  intro k' hk' e
  rw [B.start k' hk'] at e
  have := (B.junc_inj (j := 0) (j' := j + 1) hk' hk (Nat.zero_le _) hj (by omega)).2
  omega

theorem Blocks.backwardIi_start (B : Blocks t n J L) {k : ℕ} (hk : k < t.NK) :
    t.backwardIi (J k) = L k := by
  unfold Tables.backwardIi
  rw [← B.start k hk, scatter_at hk]
  · rw [B.start k hk]
    have := B.forwardIi (j := 0) hk (B.pos k hk)
    simpa using this
  · intro k' hk' e
    rw [e]

/-- The table of the links in front of the junctions holds at the last junction of a pipe the number
of the *first junction* of the pipe (superlink.py 431 reads `backward_I_i` at the start nodes, where
it still holds the junction's own number): no link of the pipe, in general. -/
theorem Blocks.forwardIi_end (B : Blocks t n J L) {k : ℕ} (hk : k < t.NK) :
    t.forwardIi (J k + n k) = J k := by
  unfold Tables.forwardIi
  rw [← B.fin k hk, scatter_at hk]
  · rw [B.start k hk]
    unfold Tables.backwardIi0
    rw [scatter_other]
    intro i hi e
    have := (B.Ip1k_eq (j := 0) hk (Nat.zero_le _) hi (by omega)).1
    omega
  · intro k' hk' e
    rw [B.fin k' hk', B.fin k hk] at e
    obtain ⟨rfl, _⟩ := B.junc_inj hk' hk (le_refl _) (le_refl _) e
    rfl

theorem Blocks.i_1k (B : Blocks t n J L) {k : ℕ} (hk : k < t.NK) : t.i_1k k = L k := by
  unfold Tables.i_1k
  rw [B.start k hk]
  have := B.forwardIi (j := 0) hk (B.pos k hk)
  simpa using this

theorem Blocks.i_nk (B : Blocks t n J L) {k : ℕ} (hk : k < t.NK) : t.i_nk k = L k + n k - 1 := by
  unfold Tables.i_nk
  have hp := B.pos k hk
  have := B.backwardIi (j := n k - 1) hk (by omega)
  rw [B.fin k hk, show J k + n k = J k + (n k - 1) + 1 by omega, this]
  omega

theorem Blocks.I_Nk (B : Blocks t n J L) {k : ℕ} (hk : k < t.NK) : t.I_Nk k = J k + n k - 1 := by
  unfold Tables.I_Nk
  have hp := B.pos k hk
  have := B.backwardII (j := n k - 1) hk (by omega)
  rw [B.fin k hk, show J k + n k = J k + (n k - 1) + 1 by omega, this]
  omega

theorem Blocks.I_2k (B : Blocks t n J L) {k : ℕ} (hk : k < t.NK) : t.I_2k k = J k + 1 := by
  unfold Tables.I_2k
  rw [B.start k hk]
  exact B.forwardII (j := 0) hk (B.pos k hk)

theorem Blocks.linkStart (B : Blocks t n J L) {k j : ℕ} (hk : k < t.NK) (hj : j < n k) :
    t.linkStart (L k + j) = true ↔ j = 0 := by
  unfold Tables.linkStart
  rw [scatter_true]
  constructor
  · rintro ⟨k', hk', e⟩
    rw [B.i_1k hk'] at e
    exact (B.link_inj (j := 0) hk' hk (B.pos k' hk') hj (by omega)).2.symm
  · rintro rfl
    exact ⟨k, hk, B.i_1k hk⟩

theorem Blocks.linkEnd (B : Blocks t n J L) {k j : ℕ} (hk : k < t.NK) (hj : j < n k) :
    t.linkEnd (L k + j) = true ↔ j + 1 = n k := by
  unfold Tables.linkEnd
  rw [scatter_true]
  have hp := B.pos k hk
  constructor
  · rintro ⟨k', hk', e⟩
    rw [B.i_nk hk'] at e
    have hp' := B.pos k' hk'
    obtain ⟨rfl, h⟩ := B.link_inj (j := n k' - 1) hk' hk (by omega) hj (by omega)
    omega
  · intro h
    exact ⟨k, hk, by rw [B.i_nk hk]; omega⟩

theorem Blocks.nk (B : Blocks t n J L) {k : ℕ} (hk : k < t.NK) : t.nk k = n k := by
  unfold Tables.nk
  have hset : ((List.range t.NL).filter (fun i => t.ki i = k)).toFinset
      = (Finset.range (n k)).image (fun j => L k + j) := by
    ext i
    simp only [List.mem_toFinset, List.mem_filter, List.mem_range, decide_eq_true_eq,
      Finset.mem_image, Finset.mem_range]
    constructor
    · rintro ⟨hi, e⟩
      obtain ⟨k', hk', j, hj, rfl⟩ := B.links i hi
      rw [B.ki k' hk' j hj] at e
      subst e
      exact ⟨j, hj, rfl⟩
    · rintro ⟨j, hj, rfl⟩
      exact ⟨B.link_lt k hk j hj, B.ki k hk j hj⟩
  have hnd : ((List.range t.NL).filter (fun i => t.ki i = k)).Nodup := List.nodup_range.filter _
  rw [← List.toFinset_card_of_nodup hnd, hset, Finset.card_image_of_injective _ (by
    intro a b h; simpa using h), Finset.card_range]

theorem Blocks.isPenult (B : Blocks t n J L) {k j : ℕ} (hk : k < t.NK) (hj : j < n k) :
    t.isPenult (J k + j) = true ↔ j + 1 = n k := by
  unfold Tables.isPenult
  have hlt := B.junc_lt k hk (j + 1) hj
  rw [Nat.mod_eq_of_lt (by omega), Nat.add_assoc, B.isEnd hk hj]

/-- The index arrays derived by the constructor meet the layout assumption of the sweep theorems. -/
theorem Blocks.layout (B : Blocks t n J L) :
    Layout t.idx.NK t.idx.nk t.idx.I_1k t.idx.i_1k where
  pos := fun k hk => by
    show 1 ≤ t.nk k
    rw [B.nk hk]; exact B.pos k hk
  links_disjoint := by
    intro k k' hk hk' hne j j' hj hj' e
    change k < t.NK at hk; change k' < t.NK at hk'
    change j < t.nk k at hj; change j' < t.nk k' at hj'
    change t.i_1k k + j = t.i_1k k' + j' at e
    rw [B.nk hk] at hj; rw [B.nk hk'] at hj'
    rw [B.i_1k hk, B.i_1k hk'] at e
    exact hne (B.link_inj hk hk' hj hj' e).1
  junctions_disjoint := by
    intro k k' hk hk' hne j j' hj hj' e
    change k < t.NK at hk; change k' < t.NK at hk'
    change j ≤ t.nk k at hj; change j' ≤ t.nk k' at hj'
    change t.start k + j = t.start k' + j' at e
    rw [B.nk hk] at hj; rw [B.nk hk'] at hj'
    rw [B.start k hk, B.start k' hk'] at e
    exact hne (B.junc_inj hk hk' hj hj' e).1

/-- … and the junction tables meet the assumption of the junction coefficients. -/
theorem Blocks.nodeIdxSpec (B : Blocks t n J L) {k : ℕ} (hk : k < t.NK) :
    NodeIdxSpec t.nodeIdx (t.idx.nk k) (t.idx.I_1k k) (t.idx.i_1k k) k := by
  have h1 : t.idx.nk k = n k := B.nk hk
  have h2 : t.idx.I_1k k = J k := B.start k hk
  have h3 : t.idx.i_1k k = L k := B.i_1k hk
  rw [h1, h2, h3]
  have hp := B.pos k hk
  refine ⟨fun j hj => B.kI k hk j hj, fun j hj => B.isStart hk hj, fun j hj => B.isEnd hk hj,
    fun j hj => B.forwardIi hk hj, ?_⟩
  have := B.backwardIi (j := n k - 1) hk (by omega)
  show t.backwardIi (J k + n k) = _
  rw [show J k + n k = J k + (n k - 1) + 1 by omega, this]
  omega

/-! ### The generated tables -/

theorem cumTotal_eq (m k : ℕ) : cumTotal m k = (k + 1) * (m + 1) := by
  unfold cumTotal; simp

theorem getD_append_left' {α : Type*} {l l' : List α} {i : ℕ} {d : α} (h : i < l.length) :
    (l ++ l').getD i d = l.getD i d := List.getD_append _ _ _ _ h

theorem repeat_range (m NK : ℕ) :
    (repeatL m (List.range NK)).length = m * NK ∧
    ∀ k, k < NK → ∀ j, j < m → (repeatL m (List.range NK)).getD (m * k + j) 0 = k := by
  induction NK with
  | zero => exact ⟨by simp [repeatL], fun k hk => absurd hk (by omega)⟩
  | succ NK ih =>
    have hsplit : repeatL m (List.range (NK + 1))
        = repeatL m (List.range NK) ++ List.replicate m NK := by
      unfold repeatL; rw [List.range_succ, List.flatMap_append]; simp
    refine ⟨?_, ?_⟩
    · rw [hsplit, List.length_append, ih.1, List.length_replicate, Nat.mul_succ]
    · intro k hk j hj
      rw [hsplit]
      rcases Nat.lt_succ_iff_lt_or_eq.1 hk with hk | rfl
      · rw [List.getD_append _ _ _ _ (by rw [ih.1]; nlinarith), ih.2 k hk j hj]
      · rw [List.getD_append_right _ _ _ _ (by rw [ih.1]; omega), ih.1]
        rw [Nat.add_sub_cancel_left, List.getD_eq_getElem _ _ (by simpa using hj), List.getElem_replicate]

/-- `np.delete(arange(NJ), idx)` with one deleted junction `p` per superlink. -/
theorem delete_range (m NK p : ℕ) (hp : p ≤ m) {idx : List ℕ}
    (hidx : ∀ I, I ∈ idx ↔ ∃ k, k < NK ∧ I = k * (m + 1) + p) :
    ∀ NK', NK' ≤ NK →
      (deleteArange ((m + 1) * NK') idx).length = m * NK' ∧
      ∀ k, k < NK' → ∀ j, j < m → (deleteArange ((m + 1) * NK') idx).getD (m * k + j) 0
        = k * (m + 1) + (if j < p then j else j + 1) := by
  intro NK'
  induction NK' with
  | zero => exact fun _ => ⟨by simp [deleteArange], fun k hk => absurd hk (by omega)⟩
  | succ N ih =>
    intro hN
    obtain ⟨ih1, ih2⟩ := ih (by omega)
    have hblock : ∀ q, ((List.range q).map (fun j => (m + 1) * N + j)).filter (fun I => I ∉ idx)
        = if q ≤ p then (List.range q).map (fun j => (m + 1) * N + j)
          else if q ≤ m + 1 then (List.range (q - 1)).map
            (fun j => (m + 1) * N + (if j < p then j else j + 1))
          else ((List.range q).map (fun j => (m + 1) * N + j)).filter (fun I => I ∉ idx) := by
      intro q
      induction q with
      | zero => simp
      | succ q ihq =>
        by_cases hq : q + 1 ≤ m + 1
        · rw [List.range_succ, List.map_append, List.filter_append, ihq]
          have hmem : (m + 1) * N + q ∈ idx ↔ q = p := by
            rw [hidx]
            constructor
            · rintro ⟨k, hk, e⟩
              have hkN : k = N := by
                by_contra hne
                rcases Nat.lt_or_gt_of_ne hne with h | h
                · have : (k + 1) * (m + 1) ≤ N * (m + 1) := Nat.mul_le_mul_right _ h
                  nlinarith
                · have : (N + 1) * (m + 1) ≤ k * (m + 1) := Nat.mul_le_mul_right _ h
                  nlinarith
              subst hkN
              rw [Nat.mul_comm] at e
              omega
            · rintro rfl
              exact ⟨N, by omega, by ring⟩
          by_cases hqp : q + 1 ≤ p
          · rw [if_pos (by omega), if_pos hqp]
            rw [show List.filter (fun I => decide (I ∉ idx)) (List.map (fun j => (m + 1) * N + j) [q])
              = [(m + 1) * N + q] from by
                simp only [List.map_cons, List.map_nil]
                rw [List.filter_cons_of_pos (by simpa [hmem] using (by omega : q ≠ p))]; simp]
            simp
          · rw [if_neg hqp, if_pos hq]
            by_cases hqe : q = p
            · rw [if_pos (by omega)]
              rw [show List.filter (fun I => decide (I ∉ idx))
                (List.map (fun j => (m + 1) * N + j) [q]) = [] from by
                  simp only [List.map_cons, List.map_nil]
                  rw [List.filter_cons_of_neg (by simpa using hmem.2 hqe)]; simp]
              rw [List.append_nil, Nat.add_sub_cancel]
              refine List.map_congr_left fun j hj => ?_
              rw [if_pos (by rw [← hqe]; exact List.mem_range.1 hj)]
            · rw [if_neg (by omega), if_pos (by omega)]
              rw [show List.filter (fun I => decide (I ∉ idx))
                (List.map (fun j => (m + 1) * N + j) [q]) = [(m + 1) * N + q] from by
                  simp only [List.map_cons, List.map_nil]
                  rw [List.filter_cons_of_pos (by simpa [hmem] using hqe)]; simp]
              obtain ⟨q', rfl⟩ : ∃ q', q = q' + 1 := ⟨q - 1, by omega⟩
              simp only [Nat.add_sub_cancel]
              rw [List.range_succ, List.map_append]
              congr 1
              simp only [List.map_cons, List.map_nil]
              rw [if_neg (by omega)]
        · rw [if_neg (by omega), if_neg hq]
    have hsplit : deleteArange ((m + 1) * (N + 1)) idx = deleteArange ((m + 1) * N) idx
        ++ (List.range m).map (fun j => (m + 1) * N + (if j < p then j else j + 1)) := by
      unfold deleteArange
      rw [Nat.mul_succ, List.range_add, List.filter_append, hblock (m + 1), if_neg (by omega),
        if_pos (le_refl _), Nat.add_sub_cancel]
    refine ⟨?_, ?_⟩
    · rw [hsplit, List.length_append, ih1, List.length_map, List.length_range, Nat.mul_succ]
    · intro k hk j hj
      rw [hsplit]
      rcases Nat.lt_succ_iff_lt_or_eq.1 hk with hk | rfl
      · rw [List.getD_append _ _ _ _ (by rw [ih1]; nlinarith), ih2 k hk j hj]
      · rw [List.getD_append_right _ _ _ _ (by rw [ih1]; omega), ih1, Nat.add_sub_cancel_left]
        rw [List.getD_eq_getElem _ _ (by simpa using hj)]
        simp [Nat.mul_comm]

theorem min_filter {l : List ℕ} {v : ℕ} (hv : v ∈ l) (h : ∀ x ∈ l, v ≤ x) : l.min?.getD 0 = v := by
  have : l.min? = some v := List.min?_eq_some_iff.2 ⟨hv, h⟩
  rw [this]; rfl

theorem max_filter {l : List ℕ} {v : ℕ} (hv : v ∈ l) (h : ∀ x ∈ l, x ≤ v) : l.max?.getD 0 = v := by
  have : l.max? = some v := List.max?_eq_some_iff.2 ⟨hv, h⟩
  rw [this]; rfl

/-- **C48, index tables.**  The tables generated for any number of superlinks and any number
`m ≥ 1` of internal links per superlink describe chains: superlink `k` has the links
`m k … m k + m - 1` and the junctions `(m+1) k … (m+1) k + m`, link `j` joins junction `j` to junction
`j + 1`, and the first and last junction are the ones recorded for the superlink. -/
theorem C48_generated_blocks (m NK : ℕ) (hm : 1 ≤ m) :
    Blocks (generated m NK) (fun _ => m) (fun k => k * (m + 1)) (fun k => m * k) := by
  have hki : ∀ k, k < NK → ∀ j, j < m → (generated m NK).ki (m * k + j) = k :=
    (repeat_range m NK).2
  have hkI : ∀ k, k < NK → ∀ j, j ≤ m → (generated m NK).kI (k * (m + 1) + j) = k := by
    intro k hk j hj
    rw [Nat.mul_comm]
    exact (repeat_range (m + 1) NK).2 k hk j (by omega)
  have hdown : ∀ I, I ∈ (downstreamNodes m NK).map (· + 1) ↔
      ∃ k, k < NK ∧ I = k * (m + 1) + m := by
    intro I
    simp only [downstreamNodes, List.map_map, List.mem_map, List.mem_range, Function.comp]
    constructor
    · rintro ⟨k, hk, rfl⟩
      refine ⟨k, hk, ?_⟩
      rw [cumTotal_eq, Nat.add_mul]; omega
    · rintro ⟨k, hk, rfl⟩
      refine ⟨k, hk, ?_⟩
      rw [cumTotal_eq, Nat.add_mul]; omega
  have hup : ∀ I, I ∈ upstreamNodes m NK ↔ ∃ k, k < NK ∧ I = k * (m + 1) + 0 := by
    intro I
    simp only [upstreamNodes, List.mem_map, List.mem_range]
    constructor
    · rintro ⟨k, hk, rfl⟩
      refine ⟨k, hk, ?_⟩
      rw [cumTotal_eq, Nat.add_mul]; omega
    · rintro ⟨k, hk, rfl⟩
      refine ⟨k, hk, ?_⟩
      rw [cumTotal_eq, Nat.add_mul]; omega
  have hIk : ∀ k, k < NK → ∀ j, j < m → (generated m NK).Ik (m * k + j) = k * (m + 1) + j := by
    intro k hk j hj
    have := (delete_range m NK m (le_refl _) hdown NK (le_refl _)).2 k hk j hj
    rw [if_pos hj] at this
    exact this
  have hIp : ∀ k, k < NK → ∀ j, j < m →
      (generated m NK).Ip1k (m * k + j) = k * (m + 1) + j + 1 := by
    intro k hk j hj
    have := (delete_range m NK 0 (Nat.zero_le _) hup NK (le_refl _)).2 k hk j hj
    rw [if_neg (Nat.not_lt_zero _)] at this
    exact this
  have hlinks : ∀ i, i < m * NK → ∃ k, k < NK ∧ ∃ j, j < m ∧ i = m * k + j := by
    intro i hi
    exact ⟨i / m, Nat.div_lt_of_lt_mul hi, i % m, Nat.mod_lt _ (by omega),
      (Nat.div_add_mod i m).symm⟩
  have hlt : ∀ k, k < NK → ∀ j, j < m → m * k + j < m * NK := by
    intro k hk j hj
    have : m * (k + 1) ≤ m * NK := Nat.mul_le_mul_left _ hk
    rw [Nat.mul_succ] at this; omega
  -- rows of superlink `k`
  have hrow : ∀ k i, i ∈ (List.range (m * NK)).filter
      (fun i => (generated m NK).ki i = k) → k < NK → ∃ j, j < m ∧ i = m * k + j := by
    intro k i hi hk
    simp only [List.mem_filter, List.mem_range, decide_eq_true_eq] at hi
    obtain ⟨k', hk', j, hj, rfl⟩ := hlinks i hi.1
    rw [hki k' hk' j hj] at hi
    obtain ⟨_, rfl⟩ := hi
    exact ⟨j, hj, rfl⟩
  have hrow' : ∀ k, k < NK → ∀ j, j < m → m * k + j ∈ (List.range (m * NK)).filter
      (fun i => (generated m NK).ki i = k) := by
    intro k hk j hj
    simp only [List.mem_filter, List.mem_range, decide_eq_true_eq]
    exact ⟨hlt k hk j hj, hki k hk j hj⟩
  refine ⟨fun _ _ => hm, ?_, ?_, hlt, hIk, hIp, hki, ?_, hkI, hlinks⟩
  · intro k hk
    refine min_filter (List.mem_map.2 ⟨m * k + 0, hrow' k hk 0 (by omega), hIk k hk 0 (by omega)⟩) ?_
    intro x hx
    obtain ⟨i, hi, rfl⟩ := List.mem_map.1 hx
    obtain ⟨j, hj, rfl⟩ := hrow k i hi hk
    have := hIk k hk j hj
    show _ ≤ (generated m NK).Ik (m * k + j)
    rw [this]; omega
  · intro k hk
    refine max_filter (List.mem_map.2 ⟨m * k + (m - 1), hrow' k hk (m - 1) (by omega), ?_⟩) ?_
    · have := hIp k hk (m - 1) (by omega)
      show (generated m NK).Ip1k _ = _
      rw [this]; omega
    · intro x hx
      obtain ⟨i, hi, rfl⟩ := List.mem_map.1 hx
      obtain ⟨j, hj, rfl⟩ := hrow k i hi hk
      have := hIp k hk j hj
      show (generated m NK).Ip1k (m * k + j) ≤ _
      rw [this]; omega
  · intro k hk j hj
    show k * (m + 1) + j < (m + 1) * NK
    have : (k + 1) * (m + 1) ≤ NK * (m + 1) := Nat.mul_le_mul_right _ hk
    rw [Nat.mul_comm (m + 1) NK]
    rw [Nat.add_mul] at this; omega

end Pipedream.Topology
