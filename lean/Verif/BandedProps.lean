import Verif.BandedModel

/-!
# C13: the banded solve loses nothing
-/

namespace Pipedream.Network

variable {K : Type*}

theorem markEdges_apply (n : ℕ) (Ju Jd : ℕ → ℕ) (At : ℕ → ℕ → Bool) (r c : ℕ) :
    markEdges n Ju Jd At r c = true ↔ At r c = true ∨ Pattern Ju Jd n r c := by
  induction n with
  | zero => simp [markEdges, Pattern]
  | succ n ih =>
    have hp : Pattern Ju Jd (n+1) r c ↔ Pattern Ju Jd n r c ∨
        ((Ju n = r ∧ Jd n = c) ∨ (Jd n = r ∧ Ju n = c)) := by
      constructor
      · rintro ⟨k, hk, h⟩
        rcases Nat.lt_succ_iff_lt_or_eq.mp hk with h' | rfl
        · exact Or.inl ⟨k, h', h⟩
        · exact Or.inr h
      · rintro (⟨k, hk, h⟩ | h)
        · exact ⟨k, by omega, h⟩
        · exact ⟨n, by omega, h⟩
    unfold markEdges at ih ⊢
    rw [forRange_succ, hp]
    simp only [upd2_apply]
    by_cases h1 : r = Jd n ∧ c = Ju n
    · simp [h1.1, h1.2]
    · by_cases h2 : r = Ju n ∧ c = Jd n
      · simp [h1, h2.1, h2.2]
      · rw [if_neg h1, if_neg h2, ih]
        have h1' : ¬ (Jd n = r ∧ Ju n = c) := fun h => h1 ⟨h.1.symm, h.2.symm⟩
        have h2' : ¬ (Ju n = r ∧ Jd n = c) := fun h => h2 ⟨h.1.symm, h.2.symm⟩
        simp [h1', h2']

/-- Two superjunctions are joined by some element. -/
def Joined (net : Net K) (i j : ℕ) : Prop :=
  Pattern net.links.Ju net.links.Jd net.links.n i j ∨
  Pattern net.orifices.Ju net.orifices.Jd net.orifices.n i j ∨
  Pattern net.weirs.Ju net.weirs.Jd net.weirs.n i j ∨
  Pattern net.pumps.Ju net.pumps.Jd net.pumps.n i j

theorem adjacency_iff (net : Net K) (i j : ℕ) : adjacency net i j = true ↔ Joined net i j := by
  unfold adjacency Joined
  simp only [markEdges_apply, Bool.false_eq_true, false_or, or_assoc]

theorem Pattern.symm {Ju Jd : ℕ → ℕ} {n i j : ℕ} (h : Pattern Ju Jd n i j) : Pattern Ju Jd n j i := by
  obtain ⟨k, hk, h⟩ := h
  exact ⟨k, hk, h.elim (fun h => Or.inr ⟨h.2, h.1⟩) (fun h => Or.inl ⟨h.2, h.1⟩)⟩

theorem Joined.symm {net : Net K} {i j : ℕ} (h : Joined net i j) : Joined net j i :=
  h.imp Pattern.symm (Or.imp Pattern.symm (Or.imp Pattern.symm Pattern.symm))

/-! ### The stored matrix -/

/-- One pass of the inner loop writes the `n+1`-st super- and subdiagonal. -/
theorem createBanded_inner [Zero K] (l AB : ℕ → ℕ → K) (bw M n J : ℕ) (hn : n < bw) (hJ : J ≤ M - n - 1)
    (r c : ℕ) :
    forRange J (fun j AB =>
      let AB := upd2 AB (bw - n - 1) (M - 1 - j) (l (M - 2 - n - j) (M - 1 - j))
      upd2 AB (bw + n + 1) j (l (j + n + 1) j)) AB r c =
    if r = bw - n - 1 ∧ M - J ≤ c ∧ c < M then l (c - n - 1) c
    else if r = bw + n + 1 ∧ c < J then l (c + n + 1) c else AB r c := by
  induction J with
  | zero =>
    have : ¬ (r = bw - n - 1 ∧ M - 0 ≤ c ∧ c < M) := by omega
    simp [this]
  | succ J ih =>
    rw [forRange_succ]
    simp only [upd2_apply]
    rw [ih (by omega)]
    by_cases h1 : r = bw + n + 1 ∧ c = J
    · obtain ⟨rfl, rfl⟩ := h1
      rw [if_pos ⟨rfl, rfl⟩, if_neg (by omega), if_pos (by omega)]
    · rw [if_neg h1]
      by_cases h2 : r = bw - n - 1 ∧ c = M - 1 - J
      · obtain ⟨rfl, rfl⟩ := h2
        rw [if_pos ⟨rfl, rfl⟩, if_pos (by omega)]
        congr 1
        omega
      · rw [if_neg h2]
        have e1 : (r = bw - n - 1 ∧ M - (J+1) ≤ c ∧ c < M) ↔ (r = bw - n - 1 ∧ M - J ≤ c ∧ c < M) := by omega
        have e2 : (r = bw + n + 1 ∧ c < J + 1) ↔ (r = bw + n + 1 ∧ c < J) := by omega
        simp only [e1, e2]

/-- The whole array: the diagonals up to `bw` of the matrix. -/
theorem createBanded_apply [Zero K] (l : ℕ → ℕ → K) (bw M : ℕ) (i j : ℕ) (hi : i < M) (hj : j < M)
    (h1 : i ≤ j + bw) (h2 : j ≤ i + bw) : createBanded l bw M (bw + i - j) j = l i j := by
  have base : ∀ r c, forRange M (fun i AB => upd2 AB bw i (l i i)) (fun _ _ => (0:K)) r c =
      if r = bw ∧ c < M then l c c else 0 := by
    intro r c
    refine forRange_inv (fun m (AB : ℕ → ℕ → K) => AB r c = if r = bw ∧ c < m then l c c else 0) M _ _ (by simp) ?_
    intro k _ AB h
    simp only [upd2_apply, h]
    by_cases hk : r = bw ∧ c = k
    · simp [hk.1, hk.2]
    · rw [if_neg hk]
      have : (r = bw ∧ c < k + 1) ↔ (r = bw ∧ c < k) := by omega
      simp only [this]
  have key : ∀ N, N ≤ bw → ∀ r c, forRange N (fun n AB =>
      forRange (M - n - 1) (fun j AB =>
      let AB := upd2 AB (bw - n - 1) (M - 1 - j) (l (M - 2 - n - j) (M - 1 - j))
      upd2 AB (bw + n + 1) j (l (j + n + 1) j)) AB)
      (forRange M (fun i AB => upd2 AB bw i (l i i)) (fun _ _ => (0:K))) r c =
      if r = bw ∧ c < M then l c c
      else if bw - N ≤ r ∧ r < bw ∧ bw - r ≤ c ∧ c < M then l (c - (bw - r)) c
      else if bw < r ∧ r ≤ bw + N ∧ c + (r - bw) < M then l (c + (r - bw)) c else 0 := by
    intro N
    induction N with
    | zero =>
      intro _ r c
      rw [forRange_zero, base]
      have a1 : ¬ (bw - 0 ≤ r ∧ r < bw ∧ bw - r ≤ c ∧ c < M) := by omega
      have a2 : ¬ (bw < r ∧ r ≤ bw + 0 ∧ c + (r - bw) < M) := by omega
      simp only [if_neg a1, if_neg a2]
    | succ N ih =>
      intro hN r c
      rw [forRange_succ, createBanded_inner l _ bw M N (M - N - 1) (by omega) le_rfl, ih (by omega)]
      by_cases c1 : r = bw - N - 1 ∧ M - (M - N - 1) ≤ c ∧ c < M
      · rw [if_pos c1, if_neg (by omega), if_pos (by omega)]
        congr 1; omega
      · rw [if_neg c1]
        by_cases c2 : r = bw + N + 1 ∧ c < M - N - 1
        · rw [if_pos c2, if_neg (by omega), if_neg (by omega), if_pos (by omega)]
          congr 1; omega
        · rw [if_neg c2]
          have e1 : (bw - N ≤ r ∧ r < bw ∧ bw - r ≤ c ∧ c < M) ↔
              (bw - (N+1) ≤ r ∧ r < bw ∧ bw - r ≤ c ∧ c < M) := by omega
          have e2 : (bw < r ∧ r ≤ bw + N ∧ c + (r - bw) < M) ↔
              (bw < r ∧ r ≤ bw + (N+1) ∧ c + (r - bw) < M) := by omega
          simp only [e1, e2]
  unfold createBanded
  rw [key bw le_rfl]
  rcases lt_trichotomy i j with h | rfl | h
  · rw [if_neg (by omega), if_pos (by omega)]
    congr 1; omega
  · have : bw + i - i = bw := by omega
    rw [if_pos ⟨this, hi⟩]
  · rw [if_neg (by omega), if_neg (by omega), if_pos (by omega)]
    congr 1; omega

/-- What the banded solver sees is the system matrix cut to the band. -/
theorem bandedMatrix_eq [Zero K] (l : ℕ → ℕ → K) (bw M : ℕ) (i j : ℕ) (hi : i < M) (hj : j < M) :
    bandedMatrix (createBanded l bw M) bw i j = if i ≤ j + bw ∧ j ≤ i + bw then l i j else 0 := by
  unfold bandedMatrix
  split_ifs with h
  · exact createBanded_apply l bw M i j hi hj h.1 h.2
  · rfl

/-- Nothing of the matrix lies outside the band. -/
def FitsBand [Zero K] (l : ℕ → ℕ → K) (M bw : ℕ) : Prop :=
  ∀ i j, i < M → j < M → l i j ≠ 0 → i ≤ j + bw ∧ j ≤ i + bw

/-- **C13 (storage).** If nothing lies outside the band, the banded and the dense solver are given the
same matrix, hence the same solutions. -/
theorem C13_storage_lossless [Field K] (l : ℕ → ℕ → K) (bw M : ℕ) (h : FitsBand l M bw) (r x : ℕ → K) :
    (∀ i j, i < M → j < M → bandedMatrix (createBanded l bw M) bw i j = l i j) ∧
    (Solves M (bandedMatrix (createBanded l bw M) bw) r x ↔ Solves M l r x) := by
  have e : ∀ i j, i < M → j < M → bandedMatrix (createBanded l bw M) bw i j = l i j := by
    intro i j hi hj
    rw [bandedMatrix_eq l bw M i j hi hj]
    split_ifs with hb
    · rfl
    · by_contra hne
      exact hb (h i j hi hj (fun h0 => hne h0.symm))
  refine ⟨e, forall_congr' fun i => forall_congr' fun hi => ?_⟩
  rw [Finset.sum_congr rfl fun j hj => by rw [e i j hi (Finset.mem_range.mp hj)]]

/-! ### The bandwidth -/

/-- Diagonal `k` carries an edge. -/
def HasDiag (At : ℕ → ℕ → Bool) (M k : ℕ) : Prop := ∃ i, i + k < M ∧ At i (i + k) = true

theorem diagAny_iff (At : ℕ → ℕ → Bool) (M k : ℕ) : diagAny At M k = true ↔ HasDiag At M k := by
  unfold diagAny HasDiag
  rw [List.any_eq_true]
  constructor
  · rintro ⟨i, hi, h⟩; exact ⟨i, by have := List.mem_range.mp hi; omega, h⟩
  · rintro ⟨i, hi, h⟩; exact ⟨i, List.mem_range.mpr (by omega), h⟩

theorem bandwidthLoop_spec (At : ℕ → ℕ → Bool) (M : ℕ) : ∀ fuel k, 1 ≤ k →
    ∃ b, bandwidthLoop At M fuel k (k - 1) = b ∧ k - 1 ≤ b ∧ b ≤ k - 1 + fuel ∧
      (∀ d, k ≤ d → d ≤ b → HasDiag At M d) ∧ (b < k - 1 + fuel → ¬ HasDiag At M (b + 1)) := by
  intro fuel
  induction fuel with
  | zero => intro k hk; exact ⟨k - 1, rfl, le_rfl, le_rfl, fun d h1 h2 => by omega, fun h => by omega⟩
  | succ fuel ih =>
    intro k hk
    by_cases h : diagAny At M k = true
    · obtain ⟨b, hb, h1, h2, h3, h4⟩ := ih (k + 1) (by omega)
      refine ⟨b, ?_, by omega, by omega, ?_, fun hlt => h4 (by omega)⟩
      · rw [bandwidthLoop, if_pos h]; exact hb
      · intro d hd1 hd2
        rcases Nat.lt_or_ge k d with hkd | hkd
        · exact h3 d hkd hd2
        · have : d = k := by omega
          subst this; exact (diagAny_iff At M d).mp h
    · refine ⟨k - 1, ?_, le_rfl, by omega, fun d h1 h2 => by omega, fun _ hd => h ?_⟩
      · rw [bandwidthLoop, if_neg h]
      · rw [diagAny_iff]; have : k - 1 + 1 = k := by omega
        rwa [this] at hd

/-- `_compute_bandwidth` returns the length of the initial run of non-empty diagonals. -/
theorem bandwidth_spec (At : ℕ → ℕ → Bool) (M : ℕ) :
    (∀ d, 1 ≤ d → d ≤ bandwidth At M → HasDiag At M d) ∧ ¬ HasDiag At M (bandwidth At M + 1) := by
  obtain ⟨b, hb, h1, h2, h3, h4⟩ := bandwidthLoop_spec At M (M - 1) 1 le_rfl
  have hb' : bandwidth At M = b := hb
  rw [hb']
  refine ⟨h3, ?_⟩
  rcases Nat.lt_or_ge b (1 - 1 + (M - 1)) with h | h
  · exact h4 h
  · rintro ⟨i, hi, -⟩; omega

/-- The set of occupied diagonals has no gap. -/
def GapFree (At : ℕ → ℕ → Bool) (M : ℕ) : Prop :=
  ∀ d e, 1 ≤ d → d ≤ e → HasDiag At M e → HasDiag At M d

theorem bandwidth_bound {At : ℕ → ℕ → Bool} {M : ℕ} (hg : GapFree At M) {i j : ℕ} (hij : i < j) (hj : j < M)
    (h : At i j = true) : j ≤ i + bandwidth At M := by
  by_contra hlt
  apply (bandwidth_spec At M).2
  refine hg _ (j - i) (by omega) (by omega) ⟨i, by omega, ?_⟩
  have : i + (j - i) = j := by omega
  rwa [this]

/-! ### Breadth-first numberings leave no gap -/

/-- What a breadth-first numbering maintains; `q` gives the position of the node from which each node was
reached (its own position for a start node). -/
structure BfsInv (adj : ℕ → ℕ → Bool) (M : ℕ) (o : List ℕ) (p : ℕ) (q : ℕ → ℕ) : Prop where
  le : p ≤ o.length
  nodup : o.Nodup
  lt : ∀ v ∈ o, v < M
  closed : ∀ i (h : i < o.length), i < p → ∀ v, v < M → adj o[i] v = true → v ∈ o
  qle : ∀ t, t < o.length → q t ≤ t ∧ q t ≤ p
  edge : ∀ t (h : t < o.length) (hq : q t < o.length), q t < t → adj o[q t] o[t] = true
  first : ∀ t (h : t < o.length) i (hi : i < o.length), i < q t → adj o[i] o[t] = false
  mono : ∀ s t, s ≤ t → t < o.length → q s ≤ q t

theorem bfs_inv {adj : ℕ → ℕ → Bool} {M : ℕ} {o : List ℕ} {p : ℕ} (h : Bfs adj M o p) :
    ∃ q, BfsInv adj M o p q := by
  induction h with
  | nil =>
    exact ⟨fun _ => 0, ⟨le_rfl, List.nodup_nil, by simp, by simp, by simp, by simp, by simp, by simp⟩⟩
  | @seed o v _ hv hno ih =>
    obtain ⟨q, I⟩ := ih
    refine ⟨fun t => if t < o.length then q t else t, ?_⟩
    constructor
    · simp
    · rw [List.nodup_append]
      exact ⟨I.nodup, by simp, by intro a ha b hb; simp at hb; subst hb; rintro rfl; exact hno ha⟩
    · intro w hw
      rcases List.mem_append.mp hw with hw | hw
      · exact I.lt w hw
      · simp at hw; omega
    · intro i hi hip w hw ha
      rw [List.getElem_append_left hip] at ha
      exact List.mem_append_left _ (I.closed i hip hip w hw ha)
    · intro t ht
      simp at ht
      by_cases h : t < o.length
      · simp [h, I.qle t h]
      · simp [h]; omega
    · intro t ht hq hlt
      by_cases h : t < o.length
      · simp only [h, if_true] at hlt hq ⊢
        have hq' : q t < o.length := by have := (I.qle t h).1; omega
        rw [List.getElem_append_left hq', List.getElem_append_left h]
        exact I.edge t h hq' hlt
      · simp [h] at hlt
    · intro t ht i hi hlt
      by_cases h : t < o.length
      · simp only [h, if_true] at hlt
        have hi' : i < o.length := by have := (I.qle t h).1; omega
        rw [List.getElem_append_left hi', List.getElem_append_left h]
        exact I.first t h i hi' hlt
      · simp only [h, if_false] at hlt
        simp at ht
        have ht' : t = o.length := by omega
        subst ht'
        have hi' : i < o.length := hlt
        rw [List.getElem_append_left hi']
        simp only [List.getElem_concat_length]
        by_contra hne
        rw [Bool.not_eq_false] at hne
        exact hno (I.closed i hi' hi' v hv hne)
    · intro s t hst ht
      simp at ht
      by_cases h : t < o.length
      · have hs : s < o.length := by omega
        simp only [h, hs, if_true]
        exact I.mono s t hst h
      · simp only [h, if_false]
        by_cases hs : s < o.length
        · simp only [hs, if_true]; have := (I.qle s hs).1; omega
        · simp only [hs, if_false]; exact hst
  | @expand o p hp new _ hnd hnew ih =>
    obtain ⟨q, I⟩ := ih
    refine ⟨fun t => if t < o.length then q t else p, ?_⟩
    have hlen : (o ++ new).length = o.length + new.length := List.length_append
    have hmem : ∀ t (h : t < (o ++ new).length), ¬ t < o.length → (o ++ new)[t] ∈ new := by
      intro t h ho
      rw [List.getElem_append_right (by omega)]
      exact List.getElem_mem _
    constructor
    · omega
    · rw [List.nodup_append]
      refine ⟨I.nodup, hnd, ?_⟩
      intro a ha b hb
      rintro rfl
      exact ((hnew a).mp hb).2.1 ha
    · intro w hw
      rcases List.mem_append.mp hw with hw | hw
      · exact I.lt w hw
      · exact ((hnew w).mp hw).1
    · intro i hi hip w hw ha
      have hi' : i < o.length := by omega
      rw [List.getElem_append_left hi'] at ha
      by_cases hwo : w ∈ o
      · exact List.mem_append_left _ hwo
      · rcases Nat.lt_succ_iff_lt_or_eq.mp hip with h | h
        · exact absurd (I.closed i hi' h w hw ha) hwo
        · subst h; exact List.mem_append_right _ ((hnew w).mpr ⟨hw, hwo, ha⟩)
    · intro t ht
      by_cases h : t < o.length
      · simp only [h, if_true]; have := I.qle t h; omega
      · simp only [h, if_false]; omega
    · intro t ht hq hlt
      by_cases h : t < o.length
      · simp only [h, if_true] at hlt hq ⊢
        have hq' : q t < o.length := by have := (I.qle t h).1; omega
        rw [List.getElem_append_left hq', List.getElem_append_left h]
        exact I.edge t h hq' hlt
      · simp only [h, if_false] at hlt hq ⊢
        rw [List.getElem_append_left hp]
        exact ((hnew _).mp (hmem t ht h)).2.2
    · intro t ht i hi hlt
      by_cases h : t < o.length
      · simp only [h, if_true] at hlt
        have hi' : i < o.length := by have := (I.qle t h).1; omega
        rw [List.getElem_append_left hi', List.getElem_append_left h]
        exact I.first t h i hi' hlt
      · simp only [h, if_false] at hlt
        have hi' : i < o.length := by omega
        rw [List.getElem_append_left hi']
        have hw := (hnew _).mp (hmem t ht h)
        by_contra hne
        rw [Bool.not_eq_false] at hne
        exact hw.2.1 (I.closed i hi' hlt _ hw.1 hne)
    · intro s t hst ht
      by_cases h : t < o.length
      · have hs : s < o.length := by omega
        simp only [h, hs, if_true]
        exact I.mono s t hst h
      · simp only [h, if_false]
        by_cases hs : s < o.length
        · simp only [hs, if_true]; exact (I.qle s hs).2
        · simp only [hs, if_false]; exact le_rfl

/-- Every distance up to the largest one between a node and the node it was reached from occurs. -/
theorem bfs_distances {adj : ℕ → ℕ → Bool} {M : ℕ} {o : List ℕ} {p : ℕ} {q : ℕ → ℕ} (I : BfsInv adj M o p q) :
    ∀ t, t < o.length → ∀ d, 1 ≤ d → d ≤ t - q t → ∃ s, s < o.length ∧ q s < s ∧ s - q s = d := by
  intro t
  induction t with
  | zero => intro _ d h1 h2; omega
  | succ t ih =>
    intro ht d h1 h2
    rcases Nat.lt_or_ge d (t + 1 - q (t + 1)) with h | h
    · have hm := I.mono t (t+1) (by omega) ht
      have := (I.qle (t+1) ht).1
      exact ih (by omega) d h1 (by omega)
    · exact ⟨t + 1, ht, by omega, by omega⟩

theorem bfs_complete_perm {M : ℕ} {o : List ℕ} (hn : o.Nodup) (hl : ∀ v ∈ o, v < M) (hM : o.length = M) :
    ∀ v, v < M → v ∈ o := by
  intro v hv
  have hsub : o.toFinset ⊆ Finset.range M := by
    intro w hw; exact Finset.mem_range.mpr (hl w (List.mem_toFinset.mp hw))
  have hcard : (Finset.range M).card ≤ o.toFinset.card := by
    rw [List.toFinset_card_of_nodup hn, hM, Finset.card_range]
  have := Finset.eq_of_subset_of_card_le hsub hcard
  have hv' : v ∈ o.toFinset := by rw [this]; exact Finset.mem_range.mpr hv
  exact List.mem_toFinset.mp hv'

theorem argsort_permOf {adj : ℕ → ℕ → Bool} {M : ℕ} {perm : List ℕ} {π : Equiv.Perm ℕ}
    (hp : ReverseCuthillMcKee adj M perm) (hπ : IsArgsort perm π) : PermOf M π := by
  obtain ⟨o, hb, hM, rfl⟩ := hp
  obtain ⟨q, I⟩ := bfs_inv hb
  have hfwd : ∀ v, v < M → π v < M := by
    intro v hv
    have hv' : v ∈ o.reverse := List.mem_reverse.mpr (bfs_complete_perm I.nodup I.lt hM v hv)
    obtain ⟨i, hi, rfl⟩ := List.getElem_of_mem hv'
    rw [hπ i hi]; rw [List.length_reverse] at hi; omega
  intro k
  refine ⟨fun h => ?_, hfwd k⟩
  have hlen : π k < o.reverse.length := by rw [List.length_reverse]; omega
  have h1 := hπ (π k) hlen
  have h2 := π.injective h1
  rw [← h2]
  exact I.lt _ (List.mem_reverse.mp (List.getElem_mem hlen))

theorem pattern_renumber {Ju Jd : ℕ → ℕ} {n : ℕ} (π : Equiv.Perm ℕ) (i j : ℕ) :
    Pattern (π ∘ Ju) (π ∘ Jd) n (π i) (π j) ↔ Pattern Ju Jd n i j := by
  simp [Pattern, Function.comp]

theorem adjacency_renumber (net : Net K) (π : Equiv.Perm ℕ) (i j : ℕ) :
    adjacency (net.renumber π) (π i) (π j) = true ↔ adjacency net i j = true := by
  rw [adjacency_iff, adjacency_iff]
  exact or_congr (pattern_renumber π i j) (or_congr (pattern_renumber π i j)
    (or_congr (pattern_renumber π i j) (pattern_renumber π i j)))

/-- The renumbered network's occupied diagonals have no gap, whether or not the network is connected. -/
theorem rcm_gapFree (net : Net K) (perm : List ℕ) (π : Equiv.Perm ℕ)
    (hp : ReverseCuthillMcKee (adjacency net) net.M perm) (hπ : IsArgsort perm π) :
    GapFree (adjacency (net.renumber π)) net.M := by
  obtain ⟨o, hb, hM, rfl⟩ := hp
  obtain ⟨q, I⟩ := bfs_inv hb
  -- position `t` of the breadth-first list becomes number `M - 1 - t`
  have hpos : ∀ t (h : t < o.length), π o[t] = net.M - 1 - t := by
    intro t h
    have := hπ (o.length - 1 - t) (by rw [List.length_reverse]; omega)
    rw [List.getElem_reverse] at this
    have e : o.length - 1 - (o.length - 1 - t) = t := by omega
    simp only [e] at this
    rw [this, hM]
  rintro d e hd hde ⟨i, hi, ha⟩
  -- the given edge joins positions `s < t`
  have ht : net.M - 1 - i < o.length := by omega
  have hs : net.M - 1 - (i + e) < o.length := by omega
  have e1 : π o[net.M - 1 - i] = i := by rw [hpos _ ht]; omega
  have e2 : π o[net.M - 1 - (i + e)] = i + e := by rw [hpos _ hs]; omega
  have hadj : adjacency net o[net.M - 1 - i] o[net.M - 1 - (i + e)] = true := by
    rw [← adjacency_renumber net π, e1, e2]; exact ha
  have hadj' : adjacency net o[net.M - 1 - (i + e)] o[net.M - 1 - i] = true := by
    rw [adjacency_iff] at hadj ⊢; exact hadj.symm
  have hq : q (net.M - 1 - i) ≤ net.M - 1 - (i + e) := by
    by_contra hlt
    have := I.first _ ht _ hs (by omega)
    rw [hadj'] at this
    exact absurd this (by decide)
  obtain ⟨s, hsl, hqs, hsd⟩ := bfs_distances I _ ht d hd (by omega)
  have hedge := I.edge s hsl (by omega) hqs
  refine ⟨net.M - 1 - s, by omega, ?_⟩
  have e3 : net.M - 1 - s + d = net.M - 1 - q s := by omega
  rw [e3, ← hpos s hsl, ← hpos (q s) (by omega), adjacency_renumber, adjacency_iff]
  rw [adjacency_iff] at hedge
  exact hedge.symm

section
variable [Field K] [LinearOrder K]

omit [LinearOrder K] in
/-- Off the diagonal the assembled matrix is zero unless the two superjunctions are joined. -/
theorem specL_support (net : Net K) (dt : K) (i j : ℕ) (hij : i ≠ j) (h : ¬ Joined net i j) :
    specL net dt i j = 0 := by
  simp only [Joined, not_or] at h
  simp only [specL, specA, specC]
  rw [blockSpec_off _ _ _ _ _ _ _ _ _ _ hij (Or.inr h.1), blockSpec_off _ _ _ _ _ _ _ _ _ _ hij (Or.inr h.2.1),
    blockSpec_off _ _ _ _ _ _ _ _ _ _ hij (Or.inr h.2.2.1), blockSpec_off _ _ _ _ _ _ _ _ _ _ hij (Or.inr h.2.2.2)]
  simp

theorem fitsBand_of_gapFree (net : Net K) (dt : K) (m : Mats K) (hm : CleanMats net m)
    (hg : GapFree (adjacency net) net.M) :
    FitsBand (systemMatrix net (assembleMats net dt m)) net.M (bandwidth (adjacency net) net.M) := by
  intro i j hi hj hne
  rw [(C11_no_stale_coefficients net dt m hm).1 i j hi] at hne
  rcases Nat.lt_trichotomy i j with h | h | h
  · have hJ : Joined net i j := by
      by_contra hn; exact hne (specL_support net dt i j (by omega) hn)
    have := bandwidth_bound hg h hj ((adjacency_iff net i j).mpr hJ)
    omega
  · omega
  · have hJ : Joined net i j := by
      by_contra hn; exact hne (specL_support net dt i j (by omega) hn)
    have := bandwidth_bound hg h hi ((adjacency_iff net j i).mpr hJ.symm)
    omega

/-- **C13.** For an automatically permuted model the banded storage holds the whole system matrix and the
banded and dense solves have the same solutions. -/
theorem C13_banded_eq_dense (net : Net K) (perm : List ℕ) (π : Equiv.Perm ℕ)
    (hp : ReverseCuthillMcKee (adjacency net) net.M perm) (hπ : IsArgsort perm π)
    (dt : K) (m : Mats K) (hm : CleanMats (net.renumber π) m) (r x : ℕ → K) :
    let net' := net.renumber π
    let l := systemMatrix net' (assembleMats net' dt m)
    let bw := bandwidth (adjacency net') net'.M
    (∀ i j, i < net'.M → j < net'.M → bandedMatrix (createBanded l bw net'.M) bw i j = l i j) ∧
    (Solves net'.M (bandedMatrix (createBanded l bw net'.M) bw) r x ↔ Solves net'.M l r x) := by
  intro net' l bw
  exact C13_storage_lossless l bw net'.M
    (fitsBand_of_gapFree net' dt m hm (rcm_gapFree net perm π hp hπ)) r x

/-- **C13 and C12 together.** The automatically permuted, banded model computes exactly the heads of the
unpermuted, dense model, renumbered. -/
theorem C13_permuted_heads (net : Net K) (perm : List ℕ) (π : Equiv.Perm ℕ)
    (hp : ReverseCuthillMcKee (adjacency net) net.M perm) (hπ : IsArgsort perm π) (hw : Wired net)
    (dt : K) (m m' : Mats K) (hm : CleanMats net m) (hm' : CleanMats (net.renumber π) m')
    (Hprev Q0 Hbc x : ℕ → K) :
    Solves net.M (bandedMatrix (createBanded (systemMatrix (net.renumber π) (assembleMats (net.renumber π) dt m'))
        (bandwidth (adjacency (net.renumber π)) net.M) net.M) (bandwidth (adjacency (net.renumber π)) net.M))
        (assembleB (net.renumber π) dt (Hprev ∘ π.symm) (Q0 ∘ π.symm) (Hbc ∘ π.symm)) (x ∘ π.symm) ↔
      Solves net.M (systemMatrix net (assembleMats net dt m)) (assembleB net dt Hprev Q0 Hbc) x :=
  (C13_banded_eq_dense net perm π hp hπ dt m' hm' _ _).2.trans
    (C12_renumber net dt m m' π (argsort_permOf hp hπ) hw hm hm' Hprev Q0 Hbc x)

end

/-! ### Without the permutation: a gap -/

/-- Four superjunctions joined by the superlinks 0–2, 1–3, 0–3: a path 2 – 0 – 3 – 1 as a user may number it. -/
def gapNet : Net ℚ where
  M := 4
  bc := fun _ => false
  As := fun _ => 5
  links := { n := 3, Ju := fun k => if k = 1 then 1 else 0, Jd := fun k => if k = 0 then 2 else 3,
             alpha_u := fun _ => 2, beta_u := fun _ => -1, chi_u := fun _ => 1,
             alpha_d := fun _ => 1, beta_d := fun _ => -2, chi_d := fun _ => 1,
             xi_u := fun _ => 1, xi_d := fun _ => 1 }
  orifices := { n := 0, Ju := fun _ => 0, Jd := fun _ => 2, alpha := fun _ => 1, beta := fun _ => -1, chi := fun _ => 0 }
  weirs := { n := 0, Ju := fun _ => 0, Jd := fun _ => 0, alpha := fun _ => 0, beta := fun _ => 0, chi := fun _ => 0 }
  pumps := { n := 0, Ju := fun _ => 0, Jd := fun _ => 0, alpha := fun _ => 0, beta := fun _ => 0, chi := fun _ => 0 }

/-- **C13, limit of the property.** For a model that was *not* permuted, asking for the banded solver
(`step(banded=True)`) is unsafe: `_compute_bandwidth` stops at the first empty diagonal, so for this
network it returns 0 and the banded matrix drops the entry coupling superjunctions 0 and 2. -/
theorem C13_unpermuted_gap :
    bandwidth (adjacency gapNet) gapNet.M = 0 ∧
    systemMatrix gapNet (assembleMats gapNet 1 ⟨fun _ _ => 0, fun _ _ => 0, fun _ _ => 0, fun _ _ => 0⟩) 0 2 ≠ 0 ∧
    bandedMatrix (createBanded (systemMatrix gapNet (assembleMats gapNet 1
      ⟨fun _ _ => 0, fun _ _ => 0, fun _ _ => 0, fun _ _ => 0⟩)) 0 4) 0 0 2 = 0 := by
  refine ⟨by decide, ?_, by simp [bandedMatrix]⟩
  rw [(C11_no_stale_coefficients gapNet 1 _ (cleanMats_zero gapNet)).1 0 2 (by decide)]
  simp [specL, specA, specC, blockSpec, gapNet, Finset.sum_range_succ]

/-! ### Non-vacuity -/

/-- The path of `gapNet` is 2 – 0 – 3 – 1; this numbering and its reverse satisfy the specification. -/
example : ReverseCuthillMcKee (adjacency gapNet) gapNet.M [1, 3, 0, 2] := by
  refine ⟨[2, 0, 3, 1], ?_, rfl, rfl⟩
  have s0 : Bfs (adjacency gapNet) gapNet.M [2] 0 := Bfs.seed (o := []) 2 Bfs.nil (by decide) (by simp)
  have M4 : gapNet.M = 4 := rfl
  have s1 : Bfs (adjacency gapNet) gapNet.M [2, 0] 1 := Bfs.expand (o := [2]) (by decide) [0] s0 (by simp) (by
    intro v
    by_cases hv : v < 4
    · have : ∀ v, v < 4 → (v ∈ [0] ↔ v < gapNet.M ∧ v ∉ [2] ∧ adjacency gapNet [2][0] v = true) := by decide
      exact this v hv
    · simp [M4, hv]; omega)
  have s2 : Bfs (adjacency gapNet) gapNet.M [2, 0, 3] 2 := Bfs.expand (o := [2, 0]) (by decide) [3] s1 (by simp) (by
    intro v
    by_cases hv : v < 4
    · have : ∀ v, v < 4 → (v ∈ [3] ↔ v < gapNet.M ∧ v ∉ [2,0] ∧ adjacency gapNet [2,0][1] v = true) := by decide
      exact this v hv
    · simp [M4, hv]; omega)
  have s3 : Bfs (adjacency gapNet) gapNet.M [2, 0, 3, 1] 3 :=
    Bfs.expand (o := [2, 0, 3]) (by decide) [1] s2 (by simp) (by
    intro v
    by_cases hv : v < 4
    · have : ∀ v, v < 4 → (v ∈ [1] ↔ v < gapNet.M ∧ v ∉ [2,0,3] ∧ adjacency gapNet [2,0,3][2] v = true) := by decide
      exact this v hv
    · simp [M4, hv]; omega)
  have s4 := Bfs.expand (o := [2, 0, 3, 1]) (by decide) [] s3 (by simp) (by
    intro v
    by_cases hv : v < 4
    · have : ∀ v, v < 4 → (v ∈ [] ↔ v < gapNet.M ∧ v ∉ [2,0,3,1] ∧ adjacency gapNet [2,0,3,1][3] v = true) := by decide
      exact this v hv
    · simp [M4, hv])
  simpa using s4

end Pipedream.Network
