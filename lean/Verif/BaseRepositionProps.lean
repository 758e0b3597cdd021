import Verif.BaseRepositionModel
import Verif.RepositionProps

/-!
# C135: repositioning in the pure-Python class

Positions, inverts and depths are those of the compiled class; flows are not after a move past two junctions, and a mask
spoils the superlinks it excludes.
-/

namespace Pipedream.Reposition

open Pipedream.Topology Pipedream.Interp

variable {K : Type*} [Field K] [LinearOrder K] [IsStrictOrderedRing K]
variable {n : ℕ} {ln : Line K} {Hd : K} {l l' : Loc K}

theorem baseTarget_eq (v : Valid n ln l) :
    baseTarget n ln Hd l = (ln.m * wanted n ln Hd l + ln.b0, wanted n ln Hd l) := by
  have hm := v.fall.ne
  unfold baseTarget
  by_cases h : moves n Hd l
  · have h' := (moves_iff v).1 h
    rw [if_pos h, wanted, if_pos h']
    congr 1
    field_simp
    ring
  · have h' : ¬ (ln.m * l.x n + ln.b0 < Hd ∧ Hd < ln.b0) := fun c => h ((moves_iff v).2 c)
    rw [if_neg h, wanted, if_neg h', v.zc]

omit [IsStrictOrderedRing K] in
theorem baseDepthAt_eq {xm hm : K} (h : depthAt n xm l = .ok hm) : baseDepthAt n xm l = some hm := by
  unfold depthAt at h
  unfold baseDepthAt
  simp only at h ⊢
  split_ifs at h ⊢ with h1 h2
  all_goals simp_all

theorem fixedIx_lt {p j : ℕ} (hp : p < n) (hj : j ≤ n) : fixedIx n p j ≤ n := by
  unfold fixedIx; split_ifs <;> omega

theorem fixedIx_inj {p i j : ℕ} (_hp : p < n) (hi : i ≤ n) (hj : j ≤ n) (h : fixedIx n p i = fixedIx n p j) : i = j := by
  unfold fixedIx at h; split_ifs at h <;> omega

theorem fixedIx_pos {p j : ℕ} (hp : p < n) (hj : j ≤ n) : fixedIx n p j = p ↔ j = n := by
  unfold fixedIx; split_ifs <;> omega

omit [Field K] [LinearOrder K] [IsStrictOrderedRing K] in
theorem compact_val {p j : ℕ} (hp : p < n) (hj : j ≤ n) (f : ℕ → K) (a : K) :
    (if j = n then a else f (fixedIx n p j)) = upd f p a (fixedIx n p j) := by
  unfold upd
  by_cases h : j = n
  · rw [if_pos h, if_pos ((fixedIx_pos hp hj).mpr h)]
  · rw [if_neg h, if_neg (fun c => h ((fixedIx_pos hp hj).mp c))]

/-- A sort of the compacted row is a sort of the row of the compiled class. -/
theorem order_iff (hp : l.pos < n) {xm : K} {Ix : ℕ → ℕ}
    (h : IsArgsort (n + 1) (fun j => if j = n then xm else l.x (fixedIx n l.pos j)) Ix) :
    IsArgsort (n + 1) (upd l.x l.pos xm) (fun j => fixedIx n l.pos (Ix j)) ∧
    placeOf n (fun j => fixedIx n l.pos (Ix j)) l.pos = placeOf n Ix n := by
  have hlt : ∀ i, i < n + 1 → Ix i ≤ n := fun i hi => by have := h.lt i hi; omega
  have ho : IsArgsort (n + 1) (upd l.x l.pos xm) (fun j => fixedIx n l.pos (Ix j)) := by
    refine ⟨fun i hi => ?_, fun i j hi hj e => ?_, fun i j hij hj => ?_⟩
    · have := fixedIx_lt hp (hlt i hi)
      omega
    · exact h.inj i j hi hj (fixedIx_inj hp (hlt i hi) (hlt j hj) e)
    · have := h.sorted i j hij hj
      rwa [compact_val hp (hlt i (by omega)), compact_val hp (hlt j hj)] at this
  refine ⟨ho, ?_⟩
  obtain ⟨a1, a2, -⟩ := placeOf_spec h (p := n) le_rfl
  obtain ⟨-, -, b3⟩ := placeOf_spec ho (p := l.pos) hp.le
  exact (b3 _ a1 (by rw [a2, fixedIx_pos hp le_rfl])).symm

/-- What a call gives in a selected row. -/
theorem baseRepos_sel (v : Valid n ln l) {Ix σ : ℕ → ℕ} (hs : BaseSorts n (wanted n ln Hd l) Ix σ l)
    (h : baseRepos n ln Hd true Ix σ l = some l') :
    ∃ m, reposLoc n ln Hd (some 0) (fun j => fixedIx n l.pos (Ix j)) σ l = .ok m ∧
      Sorts n (wanted n ln Hd l) (fun j => fixedIx n l.pos (Ix j)) σ l ∧ l'.pos = m.pos ∧
      (∀ j, j ≤ n → l'.x j = m.x j ∧ l'.z j = m.z j ∧ l'.h j = m.h j) ∧ (∀ i, i < n → l'.dx i = m.dx i) ∧
      ∀ j, l'.Q j = averaged l.pos m.pos l.Q (flowRow l.pos m.pos σ (flowRow l.pos m.pos σ j)) := by
  obtain ⟨o1, o2⟩ := order_iff v.pos_lt hs.order
  have hsort : Sorts n (wanted n ln Hd l) (fun j => fixedIx n l.pos (Ix j)) σ l := ⟨o1, by rw [o2]; exact hs.flows⟩
  obtain ⟨hm, r, hd, -, e⟩ := reposLoc_ok v (some 0) (fun _ => rfl) (fun j => fixedIx n l.pos (Ix j)) σ
  refine ⟨_, e, hsort, ?_⟩
  unfold baseRepos at h
  simp only [baseTarget_eq v, baseDepthAt_eq hd] at h
  injection h with h
  have hlt : ∀ i, i ≤ n → Ix i ≤ n := fun i hi => by have := hs.order.lt i (by omega); omega
  have hx : ∀ j, j ≤ n → l'.x j = upd l.x l.pos (wanted n ln Hd l) (fixedIx n l.pos (Ix j)) := fun j hj => by
    rw [← h, ← compact_val v.pos_lt (hlt j hj)]; rfl
  refine ⟨?_, fun j hj => ⟨hx j hj, ?_, ?_⟩, fun i hi => ?_, fun j => ?_⟩
  · rw [← h]; exact o2.symm
  · rw [← h]
    exact compact_val v.pos_lt (hlt j hj) l.z _
  · rw [← h]
    exact compact_val v.pos_lt (hlt j hj) l.h _
  · have a := hx i (by omega)
    have b := hx (i + 1) (by omega)
    have : l'.dx i = l'.x (i + 1) - l'.x i := by rw [← h]; rfl
    rw [this, a, b]
    rfl
  · rw [← h]
    have o2' : placeOf n (fun j => fixedIx n l.pos (Ix j)) l.pos = placeOf n Ix n := o2
    simp only [baseFinish, if_true, compacted, sorted, placed, o2']

omit [IsStrictOrderedRing K] in
theorem Valid.congr {a b : Loc K} (v : Valid n ln a) (hp : b.pos = a.pos) (hx : ∀ j, j ≤ n → b.x j = a.x j)
    (hz : ∀ j, j ≤ n → b.z j = a.z j) (hd : ∀ i, i < n → b.dx i = a.dx i) : Valid n ln b := by
  have p1 := v.pos_ge
  have p2 := v.pos_lt
  refine ⟨by rw [hp]; exact p1, by rw [hp]; exact p2, by rw [hx 0 (by omega)]; exact v.zero, ?_, ?_, ?_, ?_, ?_, v.fall, ?_, v.zc⟩
  · intro i j hij hj; rw [hx i (by omega), hx j hj]; exact v.sorted i j hij hj
  · intro i j hij hj hi' hj'
    rw [hp] at hi' hj'
    rw [hx i (by omega), hx j hj]; exact v.fixed i j hij hj hi' hj'
  · rw [hp, hx _ p2.le, hx n le_rfl]; exact v.inside
  · intro i hi; rw [hd i hi, hx i (by omega), hx (i + 1) (by omega)]; exact v.len i hi
  · intro j hj; rw [hz j hj, hx j hj]; exact v.line j hj
  · rw [hx n le_rfl]; exact v.centre

/-- **C135 (geometry).** A call without a mask, or in a selected superlink, succeeds and leaves junctions in order, lengths
that are differences and add up to the length of the superlink, and inverts on its line; the mobile junction is where the
downstream level meets the bed, or in the centre, and every fixed junction keeps position, invert and depth. -/
theorem C135_geometry (v : Valid n ln l) {Ix σ : ℕ → ℕ} (hs : BaseSorts n (wanted n ln Hd l) Ix σ l) :
    ∃ l', baseRepos n ln Hd true Ix σ l = some l' ∧ Valid n ln l' ∧ l'.x n = l.x n ∧
      ∑ i ∈ Finset.range n, l'.dx i = l.x n ∧ l'.x l'.pos = wanted n ln Hd l ∧
      (∀ j, j ≤ n → j ≠ l.pos →
        ∃ j', j' ≤ n ∧ j' ≠ l'.pos ∧ l'.x j' = l.x j ∧ l'.z j' = l.z j ∧ l'.h j' = l.h j) := by
  obtain ⟨hm, r, hd, -, -⟩ := reposLoc_ok v (some 0) (fun _ => rfl) Ix σ (Hd := Hd)
  have hsome : ∃ l', baseRepos n ln Hd true Ix σ l = some l' := by
    unfold baseRepos
    simp only [baseTarget_eq v, baseDepthAt_eq hd]
    exact ⟨_, rfl⟩
  obtain ⟨l', h⟩ := hsome
  obtain ⟨m, hm, hsm, ep, ex, ed, -⟩ := baseRepos_sel v hs h
  obtain ⟨V, -, x1, x2, x3, -⟩ := C49_valid v (fun _ => rfl) hsm hm
  refine ⟨l', h, V.congr ep (fun j hj => (ex j hj).1) (fun j hj => (ex j hj).2.1) ed, ?_, ?_, ?_, ?_⟩
  · rw [(ex n le_rfl).1, x1]
  · rw [← x2]; exact Finset.sum_congr rfl fun i hi => ed i (Finset.mem_range.mp hi)
  · rw [ep, (ex _ V.pos_lt.le).1, x3]
  · intro j hj hne
    obtain ⟨j', a, b, c, d, e⟩ := C49_fixed_kept v (fun _ => rfl) hsm hm j hj hne
    exact ⟨j', a, by rw [ep]; exact b, by rw [(ex j' a).1, c], by rw [(ex j' a).2.1, d], by rw [(ex j' a).2.2, e]⟩

/-- **C135 (depth of the mobile junction)**: on the straight line between the depths around its new place. -/
theorem C135_depth (v : Valid n ln l) {Ix σ : ℕ → ℕ} (hs : BaseSorts n (wanted n ln Hd l) Ix σ l)
    (h : baseRepos n ln Hd true Ix σ l = some l') :
    ∃ c, c < n ∧ l.x c < l'.x l'.pos ∧ l'.x l'.pos ≤ l.x (c + 1) ∧
      (l'.h l'.pos - l.h c) * (l.x (c + 1) - l.x c) = (l'.x l'.pos - l.x c) * (l.h (c + 1) - l.h c) := by
  obtain ⟨m, hm, hsm, ep, ex, -, -⟩ := baseRepos_sel v hs h
  have V := (C49_valid v (fun _ => rfl) hsm hm).1
  obtain ⟨c, c1, c2, c3, c4, -⟩ := C49_depth v (fun _ => rfl) hsm hm
  rw [ep, (ex _ V.pos_lt.le).1, (ex _ V.pos_lt.le).2.2]
  exact ⟨c, c1, c2, c3, c4⟩

/-- Flow of the link formed where the mobile junction leaves: the mean of the two old flows. -/
def meanFlow (l : Loc K) : K := (l.Q (l.pos - 1) + l.Q l.pos) / 2

/-- All flows of a selected row. -/
theorem base_flows_eq (v : Valid n ln l) {Ix σ : ℕ → ℕ} (hs : BaseSorts n (wanted n ln Hd l) Ix σ l)
    (h : baseRepos n ln Hd true Ix σ l = some l') {j : ℕ} (hj : j < n) :
    l'.Q j = if l'.pos = l.pos then l.Q j else
      let s : ℕ → ℕ := fun j => if l.pos < l'.pos then (if j < l.pos then j else if j < l'.pos then j + 1 else j)
        else (if j ≤ l'.pos then j else if j ≤ l.pos then j - 1 else j)
      if s (s j) = l.pos - 1 then meanFlow l else l.Q (s (s j)) := by
  obtain ⟨m, hm, hsm, ep, -, -, eQ⟩ := baseRepos_sel v hs h
  have V := (C49_valid v (fun _ => rfl) hsm hm).1
  have em : m.pos = placeOf n (fun j => fixedIx n l.pos (Ix j)) l.pos := by
    obtain ⟨_, r, -, -, e⟩ := reposLoc_ok v (some 0) (fun _ => rfl) (fun j => fixedIx n l.pos (Ix j)) σ (Hd := Hd)
    rw [e] at hm
    injection hm with hm
    rw [← hm]; rfl
  have hf := hsm.flows
  rw [← em] at hf
  rw [eQ j, ep]
  by_cases c : m.pos = l.pos
  · simp only [c, averaged, flowRow, ne_eq, not_true, if_false, if_true]
  · have c' : l.pos ≠ m.pos := Ne.symm c
    have s1 : ∀ j, j < n → flowRow l.pos m.pos σ j =
        if l.pos < m.pos then (if j < l.pos then j else if j < m.pos then j + 1 else j)
        else (if j ≤ m.pos then j else if j ≤ l.pos then j - 1 else j) := fun j hj => by
      rw [flowRow, if_pos c', flowIx_sorted v.pos_lt V.pos_lt hf hj]
    have p1 := V.pos_lt
    have s2 : flowRow l.pos m.pos σ j < n := by
      rw [s1 j hj]; split_ifs <;> omega
    rw [if_neg c]
    rw [s1 _ s2, s1 j hj]
    simp only [averaged, ne_eq, c', not_false_iff, if_true, upd, meanFlow]
    congr 1
    ring

/-- **C135 (flows, moves by at most one place).** If the mobile junction stays between its neighbours or moves past one
junction, every link keeps the flow the compiled class gives it, except that the link formed where the junction left has
the mean of the two flows instead of a weighted one. -/
theorem C135_one_place_partial (v : Valid n ln l) {Ix σ : ℕ → ℕ} (hs : BaseSorts n (wanted n ln Hd l) Ix σ l)
    (h : baseRepos n ln Hd true Ix σ l = some l') (h1 : l'.pos ≤ l.pos + 1) (h2 : l.pos ≤ l'.pos + 1) :
    ∃ m, reposLoc n ln Hd (some 0) (fun j => fixedIx n l.pos (Ix j)) σ l = .ok m ∧
      ∀ j, j < n → l'.Q j = m.Q j ∨ (l'.Q j = meanFlow l ∧ m.Q j = mergedFlow l) := by
  obtain ⟨m, hm, hsm, ep, -, -, -⟩ := baseRepos_sel v hs h
  refine ⟨m, hm, fun j hj => ?_⟩
  have V := (C49_valid v (fun _ => rfl) hsm hm).1
  rw [base_flows_eq v hs h hj, flows_eq v (fun _ => rfl) hsm hm hj, ep]
  rw [ep] at h1 h2
  by_cases c : m.pos = l.pos
  · simp only [c, if_true, true_or]
  · rw [if_neg c, if_neg c]
    simp only
    set s : ℕ → ℕ := fun j => if l.pos < m.pos then (if j < l.pos then j else if j < m.pos then j + 1 else j)
        else (if j ≤ m.pos then j else if j ≤ l.pos then j - 1 else j) with hsdef
    have e : s (s j) = s j := by
      simp only [hsdef]
      split_ifs <;> omega
    change (if s (s j) = l.pos - 1 then meanFlow l else l.Q (s (s j))) =
        (if s j = l.pos - 1 then mergedFlow l else l.Q (s j)) ∨ (if s (s j) = l.pos - 1 then meanFlow l
        else l.Q (s (s j))) = meanFlow l ∧ (if s j = l.pos - 1 then mergedFlow l else l.Q (s j)) = mergedFlow l
    rw [e]
    split_ifs with hc
    · exact Or.inr ⟨rfl, rfl⟩
    · exact Or.inl rfl

/-- **C135 (mean and weighted flow)** agree exactly for equal lengths or equal flows. -/
theorem C135_mean_iff (v : Valid n ln l) :
    meanFlow l = mergedFlow l ↔ l.dx (l.pos - 1) = l.dx l.pos ∨ l.Q (l.pos - 1) = l.Q l.pos := by
  obtain ⟨r, -, -, -, -⟩ := ratio_eq v
  have hp := v.pos_ge
  have hl := v.pos_lt
  have e1 := v.len (l.pos - 1) (by omega)
  have e2 := v.len l.pos hl
  rw [show l.pos - 1 + 1 = l.pos by omega] at e1
  have ps : 0 < l.dx (l.pos - 1) + l.dx l.pos := by
    have := v.fixed (l.pos - 1) (l.pos + 1) (by omega) (by omega) (by omega) (by omega)
    rw [e1, e2]; linarith
  have key : meanFlow l - mergedFlow l =
      (l.dx (l.pos - 1) - l.dx l.pos) * (l.Q (l.pos - 1) - l.Q l.pos) / (2 * (l.dx (l.pos - 1) + l.dx l.pos)) := by
    simp only [meanFlow, mergedFlow]
    field_simp
    ring
  rw [← sub_eq_zero, key, div_eq_zero_iff, or_iff_left (by positivity), mul_eq_zero, sub_eq_zero, sub_eq_zero]

/-- **C135 fails for moves downstream past two junctions**: a link that lies exactly where an old link lay gets the flow of
the link after it. -/
theorem C135_two_places (v : Valid n ln l) {Ix σ : ℕ → ℕ} (hs : BaseSorts n (wanted n ln Hd l) Ix σ l)
    (h : baseRepos n ln Hd true Ix σ l = some l') {j : ℕ} (hj : l.pos ≤ j) (hj2 : j + 1 < l'.pos) :
    l'.x j = l.x (j + 1) ∧ l'.x (j + 1) = l.x (j + 2) ∧ l'.Q j = l.Q (j + 2) := by
  obtain ⟨m, hm, hsm, ep, ex, -, -⟩ := baseRepos_sel v hs h
  have V := (C49_valid v (fun _ => rfl) hsm hm).1
  have p1 := V.pos_lt
  have p2 := v.pos_ge
  rw [ep] at hj2
  refine ⟨?_, ?_, ?_⟩
  · rw [(ex j (by omega)).1, positions_eq v (fun _ => rfl) hsm hm (by omega) (by omega), if_pos (by omega),
      if_neg (by omega)]
  · rw [(ex (j + 1) (by omega)).1, positions_eq v (fun _ => rfl) hsm hm (by omega) (by omega), if_pos (by omega),
      if_neg (by omega)]
  · rw [base_flows_eq v hs h (by omega), ep, if_neg (by omega)]
    have c1 : l.pos < m.pos := by omega
    simp only [c1, if_true]
    rw [if_neg (by omega : ¬ j < l.pos), if_pos (by omega : j < m.pos), if_neg (by omega : ¬ j + 1 < l.pos),
      if_pos (by omega : j + 1 < m.pos), if_neg (by omega)]

/-- **C135 fails for moves upstream past two junctions**: the link formed where the junction left gets the flow of the one
before it, not one between the two it replaces. -/
theorem C135_two_places_up (v : Valid n ln l) {Ix σ : ℕ → ℕ} (hs : BaseSorts n (wanted n ln Hd l) Ix σ l)
    (h : baseRepos n ln Hd true Ix σ l = some l') (hj : l'.pos + 1 < l.pos) :
    l'.x l.pos = l.x (l.pos - 1) ∧ l'.x (l.pos + 1) = l.x (l.pos + 1) ∧ l'.Q l.pos = l.Q (l.pos - 2) := by
  obtain ⟨m, hm, hsm, ep, ex, -, -⟩ := baseRepos_sel v hs h
  have V := (C49_valid v (fun _ => rfl) hsm hm).1
  have p1 := v.pos_lt
  rw [ep] at hj
  refine ⟨?_, ?_, ?_⟩
  · rw [(ex l.pos (by omega)).1, positions_eq v (fun _ => rfl) hsm hm (by omega) (by omega), if_neg (by omega),
      if_pos (by omega)]
  · rw [(ex (l.pos + 1) (by omega)).1, positions_eq v (fun _ => rfl) hsm hm (by omega) (by omega), if_neg (by omega),
      if_neg (by omega)]
  · rw [base_flows_eq v hs h (by omega), ep, if_neg (by omega)]
    have c1 : ¬ l.pos < m.pos := by omega
    simp only [c1, if_false]
    rw [if_neg (by omega : ¬ l.pos ≤ m.pos), if_pos le_rfl, if_neg (by omega : ¬ l.pos - 1 ≤ m.pos),
      if_pos (by omega : l.pos - 1 ≤ l.pos), if_neg (by omega), show l.pos - 1 - 1 = l.pos - 2 by omega]

/-- **C135 fails with a mask**: in every superlink the mask excludes, the mobile junction is put behind the last one, so the
junctions are out of order and the last length is negative if taken from the positions, while the lengths and the place
recorded for the mobile junction are others. -/
theorem C135_excluded (v : Valid n ln l) {Ix σ : ℕ → ℕ} (hs : BaseSorts n (wanted n ln Hd l) Ix σ l)
    (h : baseRepos n ln Hd false Ix σ l = some l') :
    l'.x n < l'.x (n - 1) ∧ l'.x (n - 1) = l.x n ∧ l'.x n = wanted n ln Hd l ∧ l'.dx = l.dx ∧ l'.pos < n ∧
      ¬ Valid n ln l' := by
  obtain ⟨hm, r, hd, -, -⟩ := reposLoc_ok v (some 0) (fun _ => rfl) Ix σ (Hd := Hd)
  unfold baseRepos at h
  simp only [baseTarget_eq v, baseDepthAt_eq hd] at h
  injection h with h
  have hp := v.pos_lt
  have hp1 := v.pos_ge
  obtain ⟨o1, o2⟩ := order_iff v.pos_lt hs.order
  have so := (sorted_order v (wanted_inside (Hd := Hd) v) o1).2.2.2
  have e1 : l'.x (n - 1) = l.x n := by
    rw [← h]
    simp only [baseFinish, compacted, Bool.false_eq_true, if_false]
    rw [if_neg (by omega)]
    congr 1
    unfold fixedIx
    rw [if_neg (by omega), if_pos (by omega)]
    omega
  have e2 : l'.x n = wanted n ln Hd l := by
    rw [← h]
    simp only [baseFinish, compacted, Bool.false_eq_true, if_false, if_true]
  have lt : l'.x n < l'.x (n - 1) := by rw [e1, e2]; exact (wanted_inside v).2
  refine ⟨lt, e1, e2, by rw [← h]; rfl, ?_, fun V => ?_⟩
  · rw [← h]
    rw [o2] at so
    exact so
  · exact absurd (V.sorted (n - 1) n (by omega) le_rfl) (not_le.mpr lt)

/-- **C135 (number of internal links).** The call raises, leaving everything as it is, unless the superlinks have exactly
four internal links. -/
theorem C135_four_links (NK il : ℕ) : rowsFit NK il = true ↔ il = 4 := by
  unfold rowsFit
  constructor
  · intro h
    simp only [Bool.and_eq_true, decide_eq_true_eq] at h
    omega
  · rintro rfl
    have h1 : NK * (4 + 1) % 5 = 0 := by omega
    have h2 : NK * 4 % 4 = 0 := by omega
    have h3 : NK * (4 + 1) / 5 = NK := by omega
    simp [h1, h2, h3]

/-! ### A case -/

/-- Line falling from `8` to `0` over length `8`. -/
def exLine4 : Line ℚ := ⟨-1, 8, 4, 4⟩

/-- Four links of length `2`, mobile junction at place `1`. -/
def exLoc4 : Loc ℚ := ⟨fun j => 2 * j, fun j => 8 - 2 * j, fun j => j, fun _ => 2, fun j => 2 * j + 1, 1⟩

theorem exValid4 : Valid 4 exLine4 exLoc4 := by
  refine ⟨le_rfl, by simp [exLoc4], by simp [exLoc4], ?_, ?_, ?_, ?_, ?_, by norm_num [exLine4],
    by norm_num [exLine4, exLoc4], by norm_num [exLine4]⟩
  · intro i j hij _
    have : (i : ℚ) ≤ j := by exact_mod_cast hij
    simp only [exLoc4]; linarith
  · intro i j hij _ _ _
    have : (i : ℚ) < j := by exact_mod_cast hij
    simp only [exLoc4]; linarith
  · norm_num [exLoc4]
  · intro i _; simp only [exLoc4]; push_cast; ring
  · intro j _; simp only [exLoc4, exLine4]; ring

def exIx4 : ℕ → ℕ := fun j => if j = 3 then 4 else if j = 4 then 3 else j
def exSig4 : ℕ → ℕ := fun j => if j = 1 then 2 else if j = 2 then 1 else j

theorem exSorts4 : BaseSorts 4 (wanted 4 exLine4 1 exLoc4) exIx4 exSig4 exLoc4 := by
  have hw : wanted 4 exLine4 1 exLoc4 = 7 := by norm_num [wanted, exLine4, exLoc4]
  have hp : placeOf 4 exIx4 4 = 3 := by decide
  refine ⟨⟨?_, ?_, ?_⟩, ⟨?_, ?_, ?_⟩⟩
  · intro i hi; interval_cases i <;> decide
  · intro i j hi hj; interval_cases i <;> interval_cases j <;> decide
  · intro i j hij hj
    rw [hw]
    interval_cases j <;> interval_cases i <;> norm_num [exLoc4, exIx4, fixedIx]
  · intro i hi; interval_cases i <;> decide
  · intro i j hi hj; interval_cases i <;> interval_cases j <;> decide
  · intro i j hij hj
    simp only [exLoc4, hp]
    interval_cases j <;> interval_cases i <;> norm_num [flowIx, exSig4]

/-- **C135 (witness).** The downstream level rises near the lower end, the junction moves from the first to the last gap
between fixed junctions: the stretch from 4 to 6 carried flow 5 and now carries 7. -/
theorem C135_witness : ∃ l', baseRepos 4 exLine4 1 true exIx4 exSig4 exLoc4 = some l' ∧ l'.x 1 = 4 ∧ l'.x 2 = 6 ∧
    l'.Q 1 = 7 ∧ exLoc4.x 2 = 4 ∧ exLoc4.x 3 = 6 ∧ exLoc4.Q 2 = 5 := by
  obtain ⟨l', h, -⟩ := C135_geometry exValid4 exSorts4
  have hpos : l'.pos = 3 := by
    obtain ⟨m, hm, -, ep, -⟩ := baseRepos_sel exValid4 exSorts4 h
    obtain ⟨_, r, -, -, e⟩ := reposLoc_ok (Hd := 1) exValid4 (some 0) (fun _ => rfl)
      (fun j => fixedIx 4 exLoc4.pos (exIx4 j)) exSig4
    rw [e] at hm
    injection hm with hm
    rw [ep, ← hm]
    exact (by decide : placeOf 4 (fun j => fixedIx 4 1 (exIx4 j)) 1 = 3)
  obtain ⟨a, b, c⟩ := C135_two_places exValid4 exSorts4 h (j := 1) le_rfl (by rw [hpos]; norm_num)
  refine ⟨l', h, ?_, ?_, ?_, ?_, ?_, ?_⟩
  · rw [a]; norm_num [exLoc4]
  · rw [b]; norm_num [exLoc4]
  · rw [c]; norm_num [exLoc4]
  all_goals norm_num [exLoc4]

end Pipedream.Reposition
