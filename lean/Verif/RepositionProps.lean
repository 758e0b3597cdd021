import Verif.RepositionModel
import Verif.ConstructProps
import Verif.InterpProps
import Mathlib.Tactic.IntervalCases

/-!
# Properties of `reposition_junctions`: C49
-/

set_option linter.unusedSectionVars false

namespace Pipedream.Reposition

open Pipedream.Topology Pipedream.Interp

variable {K : Type*} [Field K] [LinearOrder K] [IsStrictOrderedRing K]

/-! ### Specification -/

/-- A superlink with `n` links whose mobile junction is at place `l.pos`: positions run from `0` upwards in
order, all fixed junctions at different places, the mobile one strictly inside; link lengths are the
differences; inverts lie on the falling line of the superlink; the centre is inside and on the line.
`zero` holds when the superlink has no upstream end stretch: the code starts the positions at `_dx_uk`
(superlink.py 499–501). See `C49_end_stretch` for what happens otherwise. -/
structure Valid (n : ℕ) (ln : Line K) (l : Loc K) : Prop where
  pos_ge : 1 ≤ l.pos
  pos_lt : l.pos < n
  zero : l.x 0 = 0
  sorted : ∀ i j, i ≤ j → j ≤ n → l.x i ≤ l.x j
  fixed : ∀ i j, i < j → j ≤ n → i ≠ l.pos → j ≠ l.pos → l.x i < l.x j
  inside : 0 < l.x l.pos ∧ l.x l.pos < l.x n
  len : ∀ i, i < n → l.dx i = l.x (i + 1) - l.x i
  line : ∀ j, j ≤ n → l.z j = ln.m * l.x j + ln.b0
  fall : ln.m < 0
  centre : 0 < ln.xc ∧ ln.xc < l.x n
  zc : ln.zc = ln.m * ln.xc + ln.b0

/-- Where the mobile junction has to go: where the bed of the superlink has the elevation of the
downstream water level, if it does; otherwise to the centre. -/
def wanted (n : ℕ) (ln : Line K) (Hd : K) (l : Loc K) : K :=
  if ln.m * l.x n + ln.b0 < Hd ∧ Hd < ln.b0 then (Hd - ln.b0) / ln.m else ln.xc

variable {n : ℕ} {ln : Line K} {Hd : K} {l l' : Loc K}

theorem wanted_inside (v : Valid n ln l) : 0 < wanted n ln Hd l ∧ wanted n ln Hd l < l.x n := by
  unfold wanted
  split_ifs with h
  · have hm := v.fall
    constructor
    · apply div_pos_of_neg_of_neg <;> linarith [h.2]
    · rw [div_lt_iff_of_neg hm]; linarith [h.1]
  · exact v.centre

theorem moves_iff (v : Valid n ln l) :
    moves n Hd l ↔ (ln.m * l.x n + ln.b0 < Hd ∧ Hd < ln.b0) := by
  unfold moves
  rw [v.line n le_rfl, v.line 0 (by omega), v.zero, mul_zero, zero_add]

/-- The position chosen by the code, if it read `x0 = 0`. -/
theorem target_eq (v : Valid n ln l) (x0 : Option K) (h0 : moves n Hd l → x0 = some 0) :
    target n ln Hd x0 l = .ok (ln.m * wanted n ln Hd l + ln.b0, wanted n ln Hd l) := by
  have hm := v.fall.ne
  unfold target
  by_cases h : moves n Hd l
  · have h' := (moves_iff v).1 h
    rw [if_pos h, h0 h]
    simp only
    rw [if_neg hm, wanted, if_pos h']
    congr 2
    · field_simp; ring
    · ring
  · have h' : ¬ (ln.m * l.x n + ln.b0 < Hd ∧ Hd < ln.b0) := fun c => h ((moves_iff v).2 c)
    rw [if_neg h, wanted, if_neg h', v.zc]

/-- The junctions around a position inside the pipe. -/
theorem searchsorted_inside (v : Valid n ln l) {xm : K} (h : 0 < xm ∧ xm < l.x n) :
    ∃ c, searchsorted (n + 1) l.x xm = c + 1 ∧ c < n ∧ l.x c < xm ∧ xm ≤ l.x (c + 1) := by
  set c := searchsorted (n + 1) l.x xm with hc
  have h0 : c ≠ 0 := by
    intro e
    have := searchsorted_ge (n := n + 1) (xp := l.x) (x := xm) (by omega)
    rw [← hc, e, v.zero] at this
    exact absurd h.1 (not_lt.mpr this)
  have h1 : c ≤ n := by
    by_contra e
    have := searchsorted_lt (n := n + 1) (xp := l.x) (x := xm) (i := n) (by omega)
    exact absurd h.2 (not_lt.mpr this.le)
  refine ⟨c - 1, by omega, by omega, ?_, ?_⟩
  · exact searchsorted_lt (n := n + 1) (xp := l.x) (x := xm) (by omega)
  · rw [show c - 1 + 1 = c by omega]
    exact searchsorted_ge (n := n + 1) (xp := l.x) (x := xm) (by omega)

/-- The depth given to the mobile junction is read off the straight line between the two junctions around
its new position. -/
theorem depthAt_eq (v : Valid n ln l) {xm : K} (h : 0 < xm ∧ xm < l.x n) :
    ∃ c, c < n ∧ l.x c < xm ∧ xm ≤ l.x (c + 1) ∧
      depthAt n xm l = .ok (l.h c + (xm - l.x c) / (l.x (c + 1) - l.x c) * (l.h (c + 1) - l.h c)) := by
  obtain ⟨c, hc, hn, h1, h2⟩ := searchsorted_inside v h
  refine ⟨c, hn, h1, h2, ?_⟩
  have hne : l.x (c + 1) - l.x c ≠ 0 := (sub_pos.2 (lt_of_lt_of_le h1 h2)).ne'
  unfold depthAt
  simp only [hc, Nat.succ_ne_zero, if_false, Nat.add_sub_cancel]
  rw [if_neg (by omega), if_neg hne]
  congr 1
  ring

theorem ratio_eq (v : Valid n ln l) : ∃ r, ratio l = .ok r ∧ 0 ≤ r ∧ r ≤ 1 ∧
    r = l.dx (l.pos - 1) / (l.dx (l.pos - 1) + l.dx l.pos) := by
  have hp := v.pos_ge
  have hl := v.pos_lt
  have e1 := v.len (l.pos - 1) (by omega)
  have e2 := v.len l.pos hl
  rw [show l.pos - 1 + 1 = l.pos by omega] at e1
  have p1 : 0 ≤ l.dx (l.pos - 1) := by
    rw [e1]; exact sub_nonneg.2 (v.sorted _ _ (by omega) (by omega))
  have p2 : 0 ≤ l.dx l.pos := by
    rw [e2]; exact sub_nonneg.2 (v.sorted _ _ (by omega) (by omega))
  have ps : 0 < l.dx (l.pos - 1) + l.dx l.pos := by
    have := v.fixed (l.pos - 1) (l.pos + 1) (by omega) (by omega) (by omega) (by omega)
    rw [e1, e2]; linarith
  refine ⟨_, ?_, div_nonneg p1 ps.le, (div_le_one ps).2 (by linarith), rfl⟩
  unfold ratio
  rw [if_neg ps.ne']

theorem placeOf_spec {Ix : ℕ → ℕ} {x : ℕ → K} (h : IsArgsort (n + 1) x Ix) {p : ℕ} (hp : p ≤ n) :
    placeOf n Ix p ≤ n ∧ Ix (placeOf n Ix p) = p ∧ ∀ i, i ≤ n → Ix i = p → i = placeOf n Ix p := by
  obtain ⟨i, hi, e⟩ := argsort_surj h (q := p) (by omega)
  unfold placeOf
  cases hf : (List.range (n + 1)).find? (fun i => decide (Ix i = p)) with
  | none =>
    rw [List.find?_eq_none] at hf
    exact absurd e (by simpa using hf i (List.mem_range.2 hi))
  | some q =>
    have h1 := List.find?_some hf
    have h2 := List.mem_range.1 (List.mem_of_find?_eq_some hf)
    simp only [decide_eq_true_eq] at h1
    simp only [Option.getD_some]
    exact ⟨by omega, h1, fun j hj ej => h.inj _ _ (by omega) h2 (ej.trans h1.symm)⟩

/-- The call on one superlink succeeds, given the value `0` at the address read. -/
theorem reposLoc_ok (v : Valid n ln l) (x0 : Option K) (h0 : moves n Hd l → x0 = some 0) (Ix σ : ℕ → ℕ) :
    ∃ hm r, depthAt n (wanted n ln Hd l) l = .ok hm ∧ ratio l = .ok r ∧
      reposLoc n ln Hd x0 Ix σ l = .ok (sorted n r Ix σ
        (placed (ln.m * wanted n ln Hd l + ln.b0) (wanted n ln Hd l) hm l)) := by
  obtain ⟨c, -, -, -, hd⟩ := depthAt_eq v (wanted_inside (Hd := Hd) v)
  obtain ⟨r, hr, -⟩ := ratio_eq v
  refine ⟨_, r, hd, hr, ?_⟩
  unfold reposLoc
  rw [target_eq v x0 h0]
  simp only [hd, hr]

/-- Facts about the sorted positions. -/
theorem sorted_order (v : Valid n ln l) {xm : K} (hx : 0 < xm ∧ xm < l.x n) {Ix : ℕ → ℕ}
    (h : IsArgsort (n + 1) (upd l.x l.pos xm) Ix) :
    Ix 0 = 0 ∧ Ix n = n ∧ 1 ≤ placeOf n Ix l.pos ∧ placeOf n Ix l.pos < n := by
  have hp := v.pos_ge
  have hl := v.pos_lt
  have y0 : upd l.x l.pos xm 0 = 0 := by rw [upd, if_neg (by omega), v.zero]
  have yn : upd l.x l.pos xm n = l.x n := by rw [upd, if_neg (by omega)]
  have ypos : ∀ j, 1 ≤ j → j ≤ n → 0 < upd l.x l.pos xm j := by
    intro j hj1 hj2
    unfold upd
    split_ifs with e
    · exact hx.1
    · have := v.fixed 0 j (by omega) hj2 (by omega) e
      rwa [v.zero] at this
  have ylt : ∀ j, j < n → upd l.x l.pos xm j < l.x n := by
    intro j hj
    unfold upd
    split_ifs with e
    · exact hx.2
    · exact v.fixed j n hj le_rfl e (by omega)
  have e0 : Ix 0 = 0 := by
    have := argsort_first h (q := 0) (by omega) (fun j hj => by
      rw [y0]
      rcases Nat.eq_zero_or_pos j with rfl | hj0
      · rw [y0]
      · exact (ypos j hj0 (by omega)).le)
    rw [y0] at this
    by_contra hne
    exact absurd this (ypos _ (by omega) (by have := h.lt 0 (by omega); omega)).ne'
  have en : Ix n = n := by
    have := argsort_last h (q := n) (by omega) (fun j hj => by
      rw [yn]
      rcases Nat.lt_or_ge j n with hj0 | hj0
      · exact (ylt j hj0).le
      · rw [show j = n by omega, yn])
    rw [yn, show n + 1 - 1 = n by omega] at this
    by_contra hne
    exact absurd this (ylt _ (by have := h.lt n (by omega); omega)).ne
  obtain ⟨p1, p2, p3⟩ := placeOf_spec h (p := l.pos) (by omega)
  refine ⟨e0, en, ?_, ?_⟩
  · by_contra hc
    have : placeOf n Ix l.pos = 0 := by omega
    rw [this, e0] at p2
    omega
  · by_contra hc
    have : placeOf n Ix l.pos = n := by omega
    rw [this, en] at p2
    omega

/-- **C49 (geometry).** After moving the mobile junction the superlink is again valid: junctions in order,
fixed junctions at different places, lengths are differences, inverts on the line. Its length and its ends
are unchanged, the mobile junction is at the wanted position, and if the downstream level lies within the
range of inverts, its invert is that level. -/
theorem C49_valid (v : Valid n ln l) {x0 : Option K} (h0 : moves n Hd l → x0 = some 0) {Ix σ : ℕ → ℕ}
    (hs : Sorts n (wanted n ln Hd l) Ix σ l) (h : reposLoc n ln Hd x0 Ix σ l = .ok l') :
    Valid n ln l' ∧ l'.x 0 = 0 ∧ l'.x n = l.x n ∧ ∑ i ∈ Finset.range n, l'.dx i = l.x n ∧
    l'.x l'.pos = wanted n ln Hd l ∧
    (ln.m * l.x n + ln.b0 < Hd → Hd < ln.b0 → l'.z l'.pos = Hd) := by
  obtain ⟨hm, r, -, -, e⟩ := reposLoc_ok v x0 h0 Ix σ
  rw [e] at h
  injection h with h
  have hx := wanted_inside (Hd := Hd) v
  set xm := wanted n ln Hd l with hxm
  obtain ⟨i0, iN, p1, p2⟩ := sorted_order v hx hs.order
  obtain ⟨q1, q2, q3⟩ := placeOf_spec hs.order (p := l.pos) v.pos_lt.le
  have hp := v.pos_ge
  have hl := v.pos_lt
  have ex : ∀ j, l'.x j = upd l.x l.pos xm (Ix j) := fun j => by rw [← h]; rfl
  have ez : ∀ j, l'.z j = upd l.z l.pos (ln.m * xm + ln.b0) (Ix j) := fun j => by rw [← h]; rfl
  have ed : ∀ j, l'.dx j = l'.x (j + 1) - l'.x j := fun j => by rw [← h]; rfl
  have ep : l'.pos = placeOf n Ix l.pos := by rw [← h]; rfl
  have xn : l'.x n = l.x n := by rw [ex, iN, upd, if_neg (by omega)]
  have x00 : l'.x 0 = 0 := by rw [ex, i0, upd, if_neg (by omega), v.zero]
  have xp : l'.x l'.pos = xm := by rw [ex, ep, q2, upd, if_pos rfl]
  have vz : ∀ j, j ≤ n → l'.z j = ln.m * l'.x j + ln.b0 := by
    intro j hj
    rw [ez, ex]
    unfold upd
    split_ifs with c
    · rfl
    · exact v.line _ (by have := hs.order.lt j (by omega); omega)
  have ne_pos : ∀ j, j ≤ n → j ≠ l'.pos → Ix j ≠ l.pos := fun j hj hne c => hne (by rw [ep]; exact q3 j hj c)
  have vv : Valid n ln l' := by
    refine ⟨by omega, by omega, x00, ?_, ?_, ?_, fun i _ => ed i, vz, v.fall, ?_, v.zc⟩
    · intro i j hij hj
      rw [ex, ex]; exact hs.order.sorted i j hij (by omega)
    · intro i j hij hj hi' hj'
      have hle := hs.order.sorted i j hij.le (by omega)
      have a := ne_pos i (by omega) hi'
      have b := ne_pos j hj hj'
      have c : Ix i ≠ Ix j := fun c => by have := hs.order.inj i j (by omega) (by omega) c; omega
      have la := hs.order.lt i (by omega)
      have lb := hs.order.lt j (by omega)
      rw [ex, ex]
      refine lt_of_le_of_ne hle ?_
      unfold upd
      rw [if_neg a, if_neg b]
      rcases Nat.lt_or_ge (Ix i) (Ix j) with d | d
      · exact (v.fixed _ _ d (by omega) a b).ne
      · exact (v.fixed _ _ (by omega) (by omega) b a).ne'
    · rw [xp, xn]; exact hx
    · rw [xn]; exact v.centre
  refine ⟨vv, x00, xn, ?_, xp, fun h1 h2 => ?_⟩
  · rw [Finset.sum_congr rfl (fun i _ => ed i), Finset.sum_range_sub l'.x n, xn, x00, sub_zero]
  · rw [vz _ (by omega), xp, hxm, wanted, if_pos ⟨h1, h2⟩]
    have := v.fall.ne
    field_simp
    ring

/-- **C49 (the fixed junctions stay).** Every fixed junction keeps its position, invert and depth; only its
number may change. -/
theorem C49_fixed_kept (v : Valid n ln l) {x0 : Option K} (h0 : moves n Hd l → x0 = some 0) {Ix σ : ℕ → ℕ}
    (hs : Sorts n (wanted n ln Hd l) Ix σ l) (h : reposLoc n ln Hd x0 Ix σ l = .ok l') :
    ∀ j, j ≤ n → j ≠ l.pos → ∃ j', j' ≤ n ∧ j' ≠ l'.pos ∧ l'.x j' = l.x j ∧ l'.z j' = l.z j ∧ l'.h j' = l.h j := by
  obtain ⟨hm, r, -, -, e⟩ := reposLoc_ok v x0 h0 Ix σ
  rw [e] at h
  injection h with h
  obtain ⟨q1, q2, q3⟩ := placeOf_spec hs.order (p := l.pos) v.pos_lt.le
  intro j hj hne
  obtain ⟨j', hj', e'⟩ := argsort_surj hs.order (q := j) (by omega)
  refine ⟨j', by omega, ?_, ?_, ?_, ?_⟩
  · rw [← h]
    show j' ≠ placeOf n Ix l.pos
    rintro rfl
    rw [q2] at e'; omega
  all_goals
    rw [← h]
    simp only [sorted, placed, e', upd, if_neg hne]

/-- **C49 (depth).** The mobile junction receives the depth on the straight line between the two junctions
around its new position, in particular a depth between theirs. -/
theorem C49_depth (v : Valid n ln l) {x0 : Option K} (h0 : moves n Hd l → x0 = some 0) {Ix σ : ℕ → ℕ}
    (hs : Sorts n (wanted n ln Hd l) Ix σ l) (h : reposLoc n ln Hd x0 Ix σ l = .ok l') :
    ∃ c, c < n ∧ l.x c < l'.x l'.pos ∧ l'.x l'.pos ≤ l.x (c + 1) ∧
      (l'.h l'.pos - l.h c) * (l.x (c + 1) - l.x c) = (l'.x l'.pos - l.x c) * (l.h (c + 1) - l.h c) ∧
      min (l.h c) (l.h (c + 1)) ≤ l'.h l'.pos ∧ l'.h l'.pos ≤ max (l.h c) (l.h (c + 1)) := by
  obtain ⟨hm, r, hd, -, e⟩ := reposLoc_ok v x0 h0 Ix σ
  have V := C49_valid v h0 hs h
  obtain ⟨c, hc, c1, c2, hd'⟩ := depthAt_eq v (wanted_inside (Hd := Hd) v)
  rw [hd] at hd'
  injection hd' with hd'
  rw [e] at h
  injection h with h
  obtain ⟨q1, q2, q3⟩ := placeOf_spec hs.order (p := l.pos) v.pos_lt.le
  have eh : l'.h l'.pos = hm := by
    rw [← h]
    simp only [sorted, placed, q2, upd, if_true]
  have exm := V.2.2.2.2.1
  rw [exm, eh, hd']
  have w : 0 < l.x (c + 1) - l.x c := by linarith
  have f0 : 0 ≤ (wanted n ln Hd l - l.x c) / (l.x (c + 1) - l.x c) := div_nonneg (by linarith) w.le
  have f1 : (wanted n ln Hd l - l.x c) / (l.x (c + 1) - l.x c) ≤ 1 := (div_le_one w).2 (by linarith)
  refine ⟨c, hc, c1, c2, by field_simp; ring, ?_, ?_⟩
  · rcases le_total (l.h c) (l.h (c + 1)) with a | a
    · rw [min_eq_left a]; nlinarith
    · rw [min_eq_right a]; nlinarith
  · rcases le_total (l.h c) (l.h (c + 1)) with a | a
    · rw [max_eq_right a]; nlinarith
    · rw [max_eq_left a]; nlinarith

/-- **C49 (slopes need no update).** The bed slope of every link of positive length is the same before and
after, so the stored slopes remain right. -/
theorem C49_slopes (v : Valid n ln l) {x0 : Option K} (h0 : moves n Hd l → x0 = some 0) {Ix σ : ℕ → ℕ}
    (hs : Sorts n (wanted n ln Hd l) Ix σ l) (h : reposLoc n ln Hd x0 Ix σ l = .ok l') :
    ∀ i, i < n → l'.dx i ≠ 0 → (l'.z i - l'.z (i + 1)) / l'.dx i = -ln.m := by
  have V := (C49_valid v h0 hs h).1
  intro i hi hd
  rw [V.line i (by omega), V.line (i + 1) (by omega)]
  rw [V.len i hi] at hd ⊢
  field_simp
  ring

/-- **C49 (lengths).** Lengths are never negative; all are positive exactly when the wanted position is not
that of a fixed junction. -/
theorem C49_lengths (v : Valid n ln l) {x0 : Option K} (h0 : moves n Hd l → x0 = some 0) {Ix σ : ℕ → ℕ}
    (hs : Sorts n (wanted n ln Hd l) Ix σ l) (h : reposLoc n ln Hd x0 Ix σ l = .ok l') :
    (∀ i, i < n → 0 ≤ l'.dx i) ∧
    ((∀ i, i < n → 0 < l'.dx i) ↔ ∀ j, j ≤ n → j ≠ l.pos → l.x j ≠ wanted n ln Hd l) := by
  obtain ⟨V, -, -, -, xp, -⟩ := C49_valid v h0 hs h
  refine ⟨fun i hi => ?_, fun hpos j hj hne e => ?_, fun hne i hi => ?_⟩
  · rw [V.len i hi]; exact sub_nonneg.2 (V.sorted _ _ (by omega) (by omega))
  · obtain ⟨j', hj', hn', ex, -, -⟩ := C49_fixed_kept v h0 hs h j hj hne
    have strict : ∀ a b, a < b → b ≤ n → l'.x a < l'.x b := by
      intro a b hab hb
      have h1 : l'.x a < l'.x (a + 1) := by
        have := hpos a (by omega); rw [V.len a (by omega)] at this; linarith
      exact lt_of_lt_of_le h1 (V.sorted _ _ (by omega) hb)
    have ee : l'.x j' = l'.x l'.pos := by rw [ex, e, xp]
    have pl := V.pos_lt
    rcases lt_or_gt_of_ne hn' with d | d
    · exact (strict _ _ d (by omega)).ne ee
    · exact (strict _ _ d hj').ne' ee
  · rw [V.len i hi]
    refine sub_pos.2 (lt_of_le_of_ne (V.sorted _ _ (by omega) (by omega)) fun e => ?_)
    -- two neighbours at the same place: one of them is the mobile junction
    have key : ∀ a, a ≤ n → a ≠ l'.pos → l'.x a ≠ l'.x l'.pos := by
      intro a ha hna ea
      obtain ⟨hm, r, -, -, e2⟩ := reposLoc_ok v x0 h0 Ix σ
      rw [e2] at h
      injection h with h
      obtain ⟨q1, q2, q3⟩ := placeOf_spec hs.order (p := l.pos) v.pos_lt.le
      have hI : Ix a ≠ l.pos := fun c => hna (by rw [q3 a ha c, ← h]; rfl)
      have : l'.x a = l.x (Ix a) := by
        rw [← h]; simp only [sorted, placed, upd, if_neg hI]
      rw [this, xp] at ea
      exact hne _ (by have := hs.order.lt a (by omega); omega) hI ea
    by_cases c1 : i = l'.pos
    · exact key (i + 1) (by omega) (by omega) (by rw [← e, c1])
    · by_cases c2 : i + 1 = l'.pos
      · exact key i (by omega) c1 (by rw [e, c2])
      · exact (V.fixed i (i + 1) (by omega) (by omega) c1 c2).ne e

/-! ### Flows -/

/-- Two sorting orders of the same numbers give the same sorted array. -/
theorem argsort_values {N : ℕ} {f : ℕ → ℚ} {σ τ : ℕ → ℕ} (hσ : IsArgsort N f σ) (hτ : IsArgsort N f τ) {j : ℕ}
    (hj : j < N) : f (σ j) = f (τ j) := by
  have perm : ∀ {ρ : ℕ → ℕ}, IsArgsort N f ρ → ((List.range N).map ρ).Perm (List.range N) := by
    intro ρ h
    rw [List.perm_ext_iff_of_nodup]
    · intro a
      constructor
      · intro ha
        obtain ⟨i, hi, rfl⟩ := List.mem_map.1 ha
        exact List.mem_range.2 (h.lt i (List.mem_range.1 hi))
      · intro ha
        obtain ⟨i, hi, e⟩ := argsort_surj h (List.mem_range.1 ha)
        exact List.mem_map.2 ⟨i, List.mem_range.2 hi, e⟩
    · refine List.Nodup.map_on ?_ List.nodup_range
      intro a ha b hb e
      exact h.inj a b (List.mem_range.1 ha) (List.mem_range.1 hb) e
    · exact List.nodup_range
  have srt : ∀ {ρ : ℕ → ℕ}, IsArgsort N f ρ →
      ((List.range N).map (fun j => f (ρ j))).Pairwise (· ≤ ·) := by
    intro ρ h
    rw [List.pairwise_map]
    refine List.Pairwise.imp_of_mem ?_ (List.pairwise_lt_range (n := N))
    intro a b ha hb hab
    exact h.sorted a b hab.le (List.mem_range.1 hb)
  have p : ((List.range N).map (fun j => f (σ j))).Perm ((List.range N).map (fun j => f (τ j))) := by
    have := ((perm hσ).trans (perm hτ).symm).map f
    simpa [List.map_map, Function.comp_def] using this
  have e := p.eq_of_pairwise (fun a b _ _ h1 h2 => le_antisymm h1 h2) (srt hσ) (srt hτ)
  have := congrArg (fun L => L[j]?) e
  simpa [List.getElem?_map, List.getElem?_range hj] using this

/-- The sorted index array `ix` (nsuperlink.py 3205–3207). -/
theorem flowIx_sorted {p q : ℕ} (hp : p < n) (hq : q < n) {σ : ℕ → ℕ}
    (h : IsArgsort (K := ℚ) n (fun j => (flowIx p q j : ℚ)) σ) {j : ℕ} (hj : j < n) :
    flowIx p q (σ j) = if p < q then (if j < p then j else if j < q then j + 1 else j)
      else (if j ≤ q then j else if j ≤ p then j - 1 else j) := by
  by_cases hpq : p < q
  · let τ : ℕ → ℕ := fun j => if j < p then j else if j < q then j + 1 else if j = q then p else j
    have hτ : IsArgsort (K := ℚ) n (fun j => (flowIx p q j : ℚ)) τ := by
      refine ⟨?_, ?_, ?_⟩
      · intro i hi; simp only [τ]; split_ifs <;> omega
      · intro a b ha hb; simp only [τ]; split_ifs <;> omega
      · intro a b hab hb
        simp only [τ, flowIx]
        norm_cast
        split_ifs <;> omega
    have := argsort_values h hτ hj
    simp only [Nat.cast_inj] at this
    rw [this, if_pos hpq]
    simp only [τ, flowIx]
    split_ifs <;> omega
  · let τ : ℕ → ℕ := fun j => if j ≤ q then (if j = p then p else j) else if j = q + 1 ∧ q < p then p
      else if j ≤ p then j - 1 else j
    have hτ : IsArgsort (K := ℚ) n (fun j => (flowIx p q j : ℚ)) τ := by
      refine ⟨?_, ?_, ?_⟩
      · intro i hi; simp only [τ]; split_ifs <;> omega
      · intro a b ha hb; simp only [τ]; split_ifs <;> omega
      · intro a b hab hb
        simp only [τ, flowIx]
        norm_cast
        split_ifs <;> omega
    have := argsort_values h hτ hj
    simp only [Nat.cast_inj] at this
    rw [this, if_neg hpq]
    simp only [τ, flowIx]
    split_ifs <;> omega

/-- Flow of the link formed when the mobile junction leaves: between the two old flows. -/
def mergedFlow (l : Loc K) : K :=
  let r := l.dx (l.pos - 1) / (l.dx (l.pos - 1) + l.dx l.pos)
  (1 - r) * l.Q (l.pos - 1) + r * l.Q l.pos

theorem mergedFlow_between (v : Valid n ln l) :
    min (l.Q (l.pos - 1)) (l.Q l.pos) ≤ mergedFlow l ∧ mergedFlow l ≤ max (l.Q (l.pos - 1)) (l.Q l.pos) := by
  obtain ⟨r, -, r0, r1, er⟩ := ratio_eq v
  simp only [mergedFlow, ← er]
  constructor
  · rcases le_total (l.Q (l.pos - 1)) (l.Q l.pos) with a | a
    · rw [min_eq_left a]; nlinarith
    · rw [min_eq_right a]; nlinarith
  · rcases le_total (l.Q (l.pos - 1)) (l.Q l.pos) with a | a
    · rw [max_eq_right a]; nlinarith
    · rw [max_eq_left a]; nlinarith

/-- All flows after the call. -/
theorem flows_eq (v : Valid n ln l) {x0 : Option K} (h0 : moves n Hd l → x0 = some 0) {Ix σ : ℕ → ℕ}
    (hs : Sorts n (wanted n ln Hd l) Ix σ l) (h : reposLoc n ln Hd x0 Ix σ l = .ok l') {j : ℕ} (hj : j < n) :
    l'.Q j = if l'.pos = l.pos then l.Q j else
      let i := if l.pos < l'.pos then (if j < l.pos then j else if j < l'.pos then j + 1 else j)
        else (if j ≤ l'.pos then j else if j ≤ l.pos then j - 1 else j)
      if i = l.pos - 1 then mergedFlow l else l.Q i := by
  obtain ⟨hm, r, -, hr, e⟩ := reposLoc_ok v x0 h0 Ix σ
  obtain ⟨r', hr', -, -, er⟩ := ratio_eq v
  rw [hr] at hr'
  injection hr' with hr'
  subst hr'
  obtain ⟨-, -, p1, p2⟩ := sorted_order v (wanted_inside (Hd := Hd) v) hs.order
  rw [e] at h
  injection h with h
  have ep : l'.pos = placeOf n Ix l.pos := by rw [← h]; rfl
  have eQ : l'.Q = if l.pos ≠ placeOf n Ix l.pos then
      shiftFlows l.pos (placeOf n Ix l.pos) r σ l.Q else l.Q := by rw [← h]; rfl
  rw [eQ, ep]
  by_cases c : placeOf n Ix l.pos = l.pos
  · rw [if_neg (by omega), if_pos c]
  · rw [if_pos (Ne.symm c), if_neg c]
    simp only [shiftFlows]
    rw [flowIx_sorted v.pos_lt p2 hs.flows hj]
    simp only [upd, mergedFlow, er]

/-- A strictly increasing map of `0 … n-1` into itself is the identity. -/
theorem strictMono_id {N : ℕ} {f : ℕ → ℕ} (hlt : ∀ a, a < N → f a < N) (hm : ∀ a b, a < b → b < N → f a < f b) :
    ∀ a, a < N → f a = a := by
  have lo : ∀ a, a < N → a ≤ f a := by
    intro a
    induction a with
    | zero => intro _; omega
    | succ a ih =>
      intro ha
      have := ih (by omega)
      have := hm a (a + 1) (by omega) ha
      omega
  have hi : ∀ d a, a + d + 1 = N → f a ≤ a := by
    intro d
    induction d with
    | zero => intro a ha; have := hlt a (by omega); omega
    | succ d ih =>
      intro a ha
      have := ih (a + 1) (by omega)
      have := hm a (a + 1) (by omega) (by omega)
      omega
  intro a ha
  have := lo a ha
  have := hi (N - a - 1) a (by omega)
  omega

/-- The new numbering: fixed junctions keep their order. -/
theorem order_eq (v : Valid n ln l) {xm : K} {Ix : ℕ → ℕ} (h : IsArgsort (n + 1) (upd l.x l.pos xm) Ix) {j : ℕ}
    (hj : j ≤ n) (hne : j ≠ placeOf n Ix l.pos) :
    Ix j = if j < placeOf n Ix l.pos then (if j < l.pos then j else j + 1)
      else (if j ≤ l.pos then j - 1 else j) := by
  obtain ⟨q1, q2, q3⟩ := placeOf_spec h (p := l.pos) v.pos_lt.le
  set q := placeOf n Ix l.pos with hq
  have hp := v.pos_lt
  let sk : ℕ → ℕ := fun a => if a < q then a else a + 1
  let un : ℕ → ℕ := fun a => if a < l.pos then a else a - 1
  have nep : ∀ a, a ≤ n → a ≠ q → Ix a ≠ l.pos := fun a ha hna c => hna (q3 a ha c)
  have mono : ∀ a b, a < b → b ≤ n → a ≠ q → b ≠ q → Ix a < Ix b := by
    intro a b hab hb ha' hb'
    by_contra hc
    have n1 := nep a (by omega) ha'
    have n2 := nep b hb hb'
    have le := h.sorted a b hab.le (by omega)
    unfold upd at le
    rw [if_neg n1, if_neg n2] at le
    have hne : Ix a ≠ Ix b := fun c => by have := h.inj a b (by omega) (by omega) c; omega
    have := h.lt a (by omega)
    exact absurd le (not_le.2 (v.fixed _ _ (by omega) (by omega) n2 n1))
  have idf := strictMono_id (N := n) (f := fun a => un (Ix (sk a)))
    (by
      intro a ha
      have h1 : sk a ≤ n ∧ sk a ≠ q := by simp only [sk]; split_ifs <;> omega
      have := h.lt (sk a) (by omega)
      have := nep _ h1.1 h1.2
      simp only [un]; split_ifs <;> omega)
    (by
      intro a b hab hb
      have h1 : sk a ≤ n ∧ sk a ≠ q := by simp only [sk]; split_ifs <;> omega
      have h2 : sk b ≤ n ∧ sk b ≠ q := by simp only [sk]; split_ifs <;> omega
      have h3 : sk a < sk b := by simp only [sk]; split_ifs <;> omega
      have := mono _ _ h3 h2.1 h1.2 h2.2
      have := nep _ h1.1 h1.2
      have := nep _ h2.1 h2.2
      simp only [un]; split_ifs <;> omega)
  have key : ∀ a, a < n → sk a = j → un (Ix j) = a := by
    intro a ha e
    have := idf a ha
    simp only [e] at this
    exact this
  have hnp := nep j hj hne
  rcases Nat.lt_or_ge j q with c | c
  · have := key j (by omega) (by simp only [sk, if_pos c])
    rw [if_pos c]
    simp only [un] at this
    split_ifs at this ⊢ <;> omega
  · have := key (j - 1) (by omega) (by simp only [sk]; split_ifs <;> omega)
    rw [if_neg (by omega)]
    simp only [un] at this
    split_ifs at this ⊢ <;> omega

/-- New positions in terms of the old ones. -/
theorem positions_eq (v : Valid n ln l) {x0 : Option K} (h0 : moves n Hd l → x0 = some 0) {Ix σ : ℕ → ℕ}
    (hs : Sorts n (wanted n ln Hd l) Ix σ l) (h : reposLoc n ln Hd x0 Ix σ l = .ok l') {j : ℕ} (hj : j ≤ n)
    (hne : j ≠ l'.pos) :
    l'.x j = l.x (if j < l'.pos then (if j < l.pos then j else j + 1) else (if j ≤ l.pos then j - 1 else j)) := by
  obtain ⟨hm, r, -, -, e⟩ := reposLoc_ok v x0 h0 Ix σ
  rw [e] at h
  injection h with h
  have ep : l'.pos = placeOf n Ix l.pos := by rw [← h]; rfl
  have ex : l'.x j = upd l.x l.pos (wanted n ln Hd l) (Ix j) := by rw [← h]; rfl
  have hq := order_eq v hs.order hj (by rw [← ep]; exact hne)
  rw [← ep] at hq
  have : Ix j ≠ l.pos := fun c => hne (by rw [ep]; exact (placeOf_spec hs.order v.pos_lt.le).2.2 j hj c)
  rw [ex, upd, if_neg this, hq]

/-- The stretch between two positions lies within old link `i`. -/
def Within (l : Loc K) (i : ℕ) (a b : K) : Prop := l.x i ≤ a ∧ b ≤ l.x (i + 1)

theorem within_unique (v : Valid n ln l) {i i' : ℕ} {a b : K} (hi : i < n) (hi' : i' < n) (hab : a < b)
    (w : Within l i a b) (w' : Within l i' a b) : i = i' := by
  rcases Nat.lt_trichotomy i i' with c | c | c
  · have := v.sorted (i + 1) i' (by omega) (by omega)
    exact absurd hab (not_lt.2 (w.2.trans (this.trans w'.1)))
  · exact c
  · have := v.sorted (i' + 1) i (by omega) (by omega)
    exact absurd hab (not_lt.2 (w'.2.trans (this.trans w.1)))

/-- The place of the mobile junction between its new neighbours. -/
theorem mobile_between (v : Valid n ln l) {x0 : Option K} (h0 : moves n Hd l → x0 = some 0) {Ix σ : ℕ → ℕ}
    (hs : Sorts n (wanted n ln Hd l) Ix σ l) (h : reposLoc n ln Hd x0 Ix σ l = .ok l') :
    l'.x (l'.pos - 1) ≤ wanted n ln Hd l ∧ wanted n ln Hd l ≤ l'.x (l'.pos + 1) := by
  obtain ⟨V, -, -, -, xp, -⟩ := C49_valid v h0 hs h
  have := V.pos_lt
  rw [← xp]
  exact ⟨V.sorted _ _ (by omega) (by omega), V.sorted _ _ (by omega) (by omega)⟩

theorem strict_of_len (v : Valid n ln l) (hpos : ∀ i, i < n → 0 < l.dx i) {i j : ℕ} (hij : i < j) (hj : j ≤ n) :
    l.x i < l.x j := by
  have h1 : l.x i < l.x (i + 1) := by
    have := hpos i (by omega); rw [v.len i (by omega)] at this; linarith
  exact lt_of_lt_of_le h1 (v.sorted _ _ (by omega) hj)

/-- **C77 (flows, partial).** Every new link of positive length that lies within one old link carries the
flow of that old link, except possibly the link just downstream of the mobile junction after a move
upstream past another junction. -/
theorem C77_flow_carried_partial (v : Valid n ln l) (hpos : ∀ i, i < n → 0 < l.dx i) {x0 : Option K}
    (h0 : moves n Hd l → x0 = some 0) {Ix σ : ℕ → ℕ}
    (hs : Sorts n (wanted n ln Hd l) Ix σ l) (h : reposLoc n ln Hd x0 Ix σ l = .ok l') {i j : ℕ} (hi : i < n)
    (hj : j < n) (hup : l'.pos < l.pos → j ≠ l'.pos) (hlen : 0 < l'.dx j)
    (hw : Within l i (l'.x j) (l'.x (j + 1))) : l'.Q j = l.Q i := by
  obtain ⟨V, -, -, -, xp, -⟩ := C49_valid v h0 hs h
  have hpos' := fun {a : ℕ} (ha : a ≤ n) (hne : a ≠ l'.pos) => positions_eq v h0 hs h ha hne
  have hb := mobile_between v h0 hs h
  have hlt : l'.x j < l'.x (j + 1) := by rw [V.len j hj] at hlen; linarith
  have p1 := v.pos_ge
  have p2 := v.pos_lt
  have q1 := V.pos_ge
  have q2 := V.pos_lt
  have uniq := fun i' (hi' : i' < n) (w : Within l i' (l'.x j) (l'.x (j + 1))) =>
    within_unique v hi hi' hlt hw w
  rw [flows_eq v h0 hs h hj]
  by_cases hq : l'.pos = l.pos
  · rw [if_pos hq]
    congr 1
    -- the layout has the same numbering
    by_cases c1 : j = l'.pos
    · have e := hpos' (a := j + 1) (by omega) (by omega)
      rw [if_neg (by omega), if_neg (by omega)] at e
      by_contra hne
      rcases lt_or_gt_of_ne hne with d | d
      · exact absurd (hw.1) (not_le.2 (lt_of_lt_of_le hlt (by
          rw [e]; exact v.sorted _ _ (by omega) (by omega))))
      · have := strict_of_len v hpos (i := i + 1) (j := j + 1) (by omega) (by omega)
        exact absurd hw.2 (not_le.2 (by rw [e]; exact this))
    · by_cases c2 : j + 1 = l'.pos
      · have e := hpos' (a := j) (by omega) (by omega)
        rw [if_pos (by omega), if_pos (by omega)] at e
        by_contra hne
        rcases lt_or_gt_of_ne hne with d | d
        · have := strict_of_len v hpos (i := j) (j := i) d (by omega)
          exact absurd hw.1 (not_le.2 (by rw [e]; exact this))
        · have := v.sorted (i + 1) j (by omega) (by omega)
          exact absurd hlt (not_lt.2 (by rw [e]; exact hw.2.trans this))
      · refine (uniq j hj ⟨?_, ?_⟩).symm
        · rw [hpos' (a := j) (by omega) c1]; split_ifs <;> first | omega | exact le_rfl
        · rw [hpos' (a := j + 1) (by omega) c2]; split_ifs <;> first | omega | exact le_rfl
  · rw [if_neg hq]
    by_cases hm : (l.pos < l'.pos ∧ j = l.pos - 1) ∨ (l'.pos < l.pos ∧ j = l.pos)
    · -- the merged link does not lie within one old link
      exfalso
      have e1 : l'.x j = l.x (l.pos - 1) := by
        rw [hpos' (a := j) (by omega) (by omega)]
        congr 1
        split_ifs <;> omega
      have e2 : l'.x (j + 1) = l.x (l.pos + 1) := by
        rw [hpos' (a := j + 1) (by omega) (by omega)]
        congr 1
        split_ifs <;> omega
      rw [Within, e1, e2] at hw
      rcases Nat.lt_or_ge i l.pos with d | d
      · exact absurd hw.2 (not_le.2 (strict_of_len v hpos (by omega) (by omega)))
      · exact absurd hw.1 (not_le.2 (strict_of_len v hpos (by omega) (by omega)))
    · set i' := (if l.pos < l'.pos then (if j < l.pos then j else if j < l'.pos then j + 1 else j)
        else (if j ≤ l'.pos then j else if j ≤ l.pos then j - 1 else j)) with hi'
      have hin : i' < n := by rw [hi']; split_ifs <;> omega
      have hne : i' ≠ l.pos - 1 := by rw [hi']; split_ifs <;> omega
      have w : Within l i' (l'.x j) (l'.x (j + 1)) := by
        by_cases c1 : j = l'.pos
        · have e := hpos' (a := j - 1) (by omega) (by omega)
          have e2 := hpos' (a := j + 1) (by omega) (by omega)
          refine ⟨?_, ?_⟩
          · rw [c1, xp]
            refine le_trans (le_of_eq ?_) hb.1
            rw [← c1, e]
            congr 1
            rw [hi']
            split_ifs <;> omega
          · rw [e2]
            refine le_of_eq ?_
            congr 1
            rw [hi']
            split_ifs <;> omega
        · by_cases c2 : j + 1 = l'.pos
          · have e := hpos' (a := j) (by omega) (by omega)
            have e2 := hpos' (a := j + 2) (by omega) (by omega)
            refine ⟨?_, ?_⟩
            · rw [e]
              refine le_of_eq ?_
              congr 1
              rw [hi']
              split_ifs <;> omega
            · rw [c2, xp]
              refine le_trans hb.2 (le_of_eq ?_)
              rw [← c2, e2]
              congr 1
              rw [hi']
              split_ifs <;> omega
          · have e := hpos' (a := j) (by omega) c1
            have e2 := hpos' (a := j + 1) (by omega) c2
            rw [Within, e, e2]
            constructor <;> refine le_of_eq ?_ <;> congr 1 <;> rw [hi'] <;> split_ifs <;> omega
      simp only
      rw [if_neg hne, uniq i' hin w]

/-- **C77 (merged link).** The link formed where the mobile junction left carries the flow interpolated
at the removed junction, which lies between the flows of the two links it replaces. -/
theorem C77_merged (v : Valid n ln l) (hpos : ∀ i, i < n → 0 < l.dx i) {x0 : Option K}
    (h0 : moves n Hd l → x0 = some 0) {Ix σ : ℕ → ℕ}
    (hs : Sorts n (wanted n ln Hd l) Ix σ l) (h : reposLoc n ln Hd x0 Ix σ l = .ok l') (hq : l'.pos ≠ l.pos)
    {j : ℕ} (hj : j < n) (hl : l'.x j = l.x (l.pos - 1)) (hr : l'.x (j + 1) = l.x (l.pos + 1)) :
    l'.Q j * (l.dx (l.pos - 1) + l.dx l.pos) = l.dx l.pos * l.Q (l.pos - 1) + l.dx (l.pos - 1) * l.Q l.pos ∧
    min (l.Q (l.pos - 1)) (l.Q l.pos) ≤ l'.Q j ∧ l'.Q j ≤ max (l.Q (l.pos - 1)) (l.Q l.pos) := by
  obtain ⟨V, -, -, -, xp, -⟩ := C49_valid v h0 hs h
  have hpos' := fun {a : ℕ} (ha : a ≤ n) (hne : a ≠ l'.pos) => positions_eq v h0 hs h ha hne
  have hb := mobile_between v h0 hs h
  have p1 := v.pos_ge
  have p2 := v.pos_lt
  have q1 := V.pos_ge
  have q2 := V.pos_lt
  have inj : ∀ a b, a ≤ n → b ≤ n → l.x a = l.x b → a = b := by
    intro a b ha hb' e
    rcases Nat.lt_trichotomy a b with c | c | c
    · exact absurd e (strict_of_len v hpos c hb').ne
    · exact c
    · exact absurd e (strict_of_len v hpos c ha).ne'
  have hm : (l.pos < l'.pos ∧ j = l.pos - 1) ∨ (l'.pos < l.pos ∧ j = l.pos) := by
    by_cases c1 : j = l'.pos
    · exfalso
      have e2 := hpos' (a := j + 1) (by omega) (by omega)
      have e0 := hpos' (a := j - 1) (by omega) (by omega)
      rw [hr] at e2
      have i2 := inj _ _ (by omega) (by split_ifs <;> omega) e2
      have hb1 : l'.x (j - 1) ≤ l.x (l.pos - 1) := by rw [← hl, c1, xp]; exact hb.1
      rw [e0] at hb1
      have : ¬ (l.pos - 1 < (if j - 1 < l'.pos then (if j - 1 < l.pos then j - 1 else j - 1 + 1)
          else (if j - 1 ≤ l.pos then j - 1 - 1 else j - 1))) := fun c =>
        absurd hb1 (not_le.2 (strict_of_len v hpos c (by split_ifs <;> omega)))
      split_ifs at this i2 <;> omega
    · by_cases c2 : j + 1 = l'.pos
      · exfalso
        have e0 := hpos' (a := j) (by omega) c1
        have e2 := hpos' (a := j + 2) (by omega) (by omega)
        rw [hl] at e0
        have i0 := inj _ _ (by omega) (by split_ifs <;> omega) e0
        have hb2 : l.x (l.pos + 1) ≤ l'.x (j + 2) := by rw [← hr, c2, xp]; rw [← c2] at hb; exact hb.2
        rw [e2] at hb2
        have : ¬ ((if j + 2 < l'.pos then (if j + 2 < l.pos then j + 2 else j + 2 + 1)
            else (if j + 2 ≤ l.pos then j + 2 - 1 else j + 2)) < l.pos + 1) := fun c =>
          absurd hb2 (not_le.2 (strict_of_len v hpos c (by omega)))
        split_ifs at this i0 <;> omega
      · have e0 := hpos' (a := j) (by omega) c1
        have e2 := hpos' (a := j + 1) (by omega) c2
        rw [hl] at e0
        rw [hr] at e2
        have i0 := inj _ _ (by omega) (by split_ifs <;> omega) e0
        have i2 := inj _ _ (by omega) (by split_ifs <;> omega) e2
        split_ifs at i0 i2 <;> omega
  have eQ : l'.Q j = mergedFlow l := by
    rw [flows_eq v h0 hs h hj, if_neg hq]
    simp only
    rw [if_pos]
    split_ifs <;> omega
  have hs' : l.dx (l.pos - 1) + l.dx l.pos ≠ 0 :=
    (add_pos (hpos (l.pos - 1) (by omega)) (hpos l.pos p2)).ne'
  rw [eQ]
  refine ⟨?_, mergedFlow_between v⟩
  simp only [mergedFlow]
  field_simp
  ring

/-- **C77 (violated upstream).** After a move upstream past another junction, the link just downstream of
the mobile junction lies within old link `pos' - 1`, but receives the flow of old link `pos'` (or the flow
of the merged link, if that is the next one). -/
theorem C77_flow_upstream (v : Valid n ln l) {x0 : Option K} (h0 : moves n Hd l → x0 = some 0) {Ix σ : ℕ → ℕ}
    (hs : Sorts n (wanted n ln Hd l) Ix σ l) (h : reposLoc n ln Hd x0 Ix σ l = .ok l') (hq : l'.pos < l.pos) :
    Within l (l'.pos - 1) (l'.x l'.pos) (l'.x (l'.pos + 1)) ∧
    l'.Q l'.pos = if l'.pos = l.pos - 1 then mergedFlow l else l.Q l'.pos := by
  obtain ⟨V, -, -, -, xp, -⟩ := C49_valid v h0 hs h
  have hb := mobile_between v h0 hs h
  have p2 := v.pos_lt
  have q1 := V.pos_ge
  have q2 := V.pos_lt
  have e0 := positions_eq v h0 hs h (j := l'.pos - 1) (by omega) (by omega)
  have e2 := positions_eq v h0 hs h (j := l'.pos + 1) (by omega) (by omega)
  rw [if_pos (by omega), if_pos (by omega)] at e0
  rw [if_neg (by omega), if_pos (by omega)] at e2
  refine ⟨⟨?_, ?_⟩, ?_⟩
  · rw [xp, ← e0]; exact hb.1
  · rw [e2, show l'.pos + 1 - 1 = l'.pos - 1 + 1 by omega]
  · rw [flows_eq v h0 hs h q2, if_neg (by omega)]
    simp only [le_refl, if_true, if_neg (show ¬ l.pos < l'.pos by omega)]

/-! ### All superlinks -/

/-- Equal on the entries of the superlink. -/
structure Agree (n : ℕ) (l l' : Loc K) : Prop where
  x : ∀ j, j ≤ n → l.x j = l'.x j
  z : ∀ j, j ≤ n → l.z j = l'.z j
  h : ∀ j, j ≤ n → l.h j = l'.h j
  dx : ∀ j, j < n → l.dx j = l'.dx j
  Q : ∀ j, j < n → l.Q j = l'.Q j
  pos : l.pos = l'.pos

theorem Agree.valid (a : Agree n l l') (v : Valid n ln l) : Valid n ln l' := by
  have p1 := v.pos_ge
  have p2 := v.pos_lt
  refine ⟨by rw [← a.pos]; exact p1, by rw [← a.pos]; exact p2, ?_, ?_, ?_, ?_, ?_, ?_, v.fall, ?_, v.zc⟩
  · rw [← a.x 0 (by omega)]; exact v.zero
  · intro i j hij hj; rw [← a.x i (by omega), ← a.x j hj]; exact v.sorted i j hij hj
  · intro i j hij hj hi' hj'
    rw [← a.x i (by omega), ← a.x j hj]
    exact v.fixed i j hij hj (by rw [a.pos]; exact hi') (by rw [a.pos]; exact hj')
  · rw [← a.pos, ← a.x _ (by omega), ← a.x n le_rfl]; exact v.inside
  · intro i hi; rw [← a.dx i hi, ← a.x i (by omega), ← a.x (i + 1) (by omega)]; exact v.len i hi
  · intro j hj; rw [← a.x j hj, ← a.z j hj]; exact v.line j hj
  · rw [← a.x n le_rfl]; exact v.centre

/-- The arrays seen through superlink `k` of a layout with `n` links per superlink. -/
abbrev sub (n : ℕ) (s : Arr K) (k : ℕ) : Loc K := s.view (k * (n + 1)) (n * k) k

theorem block_disjoint {a b j : ℕ} {w : ℕ} (hab : a ≠ b) (hj : j < w) :
    ¬ (a * w ≤ b * w + j ∧ b * w + j < a * w + w) := by
  intro ⟨h1, h2⟩
  rcases lt_or_gt_of_ne hab with c | c
  · have : (a + 1) * w ≤ b * w := Nat.mul_le_mul_right _ c
    rw [Nat.add_mul] at this; omega
  · have : (b + 1) * w ≤ a * w := Nat.mul_le_mul_right _ c
    rw [Nat.add_mul] at this; omega

theorem agree_put (s : Arr K) (k : ℕ) (l : Loc K) : Agree n l (sub n (s.put (k * (n + 1)) (n * k) n k l) k) := by
  refine ⟨?_, ?_, ?_, ?_, ?_, ?_⟩
  all_goals first | (intro j hj) | skip
  all_goals simp only [Arr.view, Arr.put, upd, if_true]
  all_goals rw [if_pos (by omega), Nat.add_sub_cancel_left]

theorem agree_put_ne (s : Arr K) {k k' : ℕ} (hk : k' ≠ k) (l : Loc K) :
    Agree n (sub n s k') (sub n (s.put (k * (n + 1)) (n * k) n k l) k') := by
  refine ⟨?_, ?_, ?_, ?_, ?_, ?_⟩
  all_goals first | (intro j hj) | skip
  all_goals simp only [Arr.view, Arr.put, upd]
  · rw [if_neg (block_disjoint (Ne.symm hk) (by omega))]
  · rw [if_neg (block_disjoint (Ne.symm hk) (by omega))]
  · rw [if_neg (block_disjoint (Ne.symm hk) (by omega))]
  · rw [Nat.mul_comm n k, Nat.mul_comm n k', if_neg (block_disjoint (Ne.symm hk) hj)]
  · rw [Nat.mul_comm n k, Nat.mul_comm n k', if_neg (block_disjoint (Ne.symm hk) hj)]
  · rw [if_neg hk]

theorem Agree.refl (l : Loc K) : Agree n l l := ⟨fun _ _ => rfl, fun _ _ => rfl, fun _ _ => rfl, fun _ _ => rfl,
  fun _ _ => rfl, rfl⟩

theorem Agree.trans {a b c : Loc K} (h : Agree n a b) (g : Agree n b c) : Agree n a c :=
  ⟨fun j hj => (h.x j hj).trans (g.x j hj), fun j hj => (h.z j hj).trans (g.z j hj),
   fun j hj => (h.h j hj).trans (g.h j hj), fun j hj => (h.dx j hj).trans (g.dx j hj),
   fun j hj => (h.Q j hj).trans (g.Q j hj), h.pos.trans g.pos⟩

theorem Agree.symm (h : Agree n l l') : Agree n l' l :=
  ⟨fun j hj => (h.x j hj).symm, fun j hj => (h.z j hj).symm, fun j hj => (h.h j hj).symm,
   fun j hj => (h.dx j hj).symm, fun j hj => (h.Q j hj).symm, h.pos.symm⟩

/-- What a successful repositioning of one superlink is: everything a user can observe of it. -/
structure Moved (n : ℕ) (ln : Line K) (Hd : K) (l l' : Loc K) : Prop where
  valid : Valid n ln l'
  length : l'.x n = l.x n
  position : l'.x l'.pos = wanted n ln Hd l
  level : ln.m * l.x n + ln.b0 < Hd → Hd < ln.b0 → l'.z l'.pos = Hd
  fixed : ∀ j, j ≤ n → j ≠ l.pos → ∃ j', j' ≤ n ∧ j' ≠ l'.pos ∧ l'.x j' = l.x j ∧ l'.z j' = l.z j ∧ l'.h j' = l.h j
  depth : ∃ c, c < n ∧ l.x c < l'.x l'.pos ∧ l'.x l'.pos ≤ l.x (c + 1) ∧
    (l'.h l'.pos - l.h c) * (l.x (c + 1) - l.x c) = (l'.x l'.pos - l.x c) * (l.h (c + 1) - l.h c) ∧
    min (l.h c) (l.h (c + 1)) ≤ l'.h l'.pos ∧ l'.h l'.pos ≤ max (l.h c) (l.h (c + 1))
  flow : (∀ i, i < n → 0 < l.dx i) → ∀ i j, i < n → j < n → (l'.pos < l.pos → j ≠ l'.pos) → 0 < l'.dx j →
    Within l i (l'.x j) (l'.x (j + 1)) → l'.Q j = l.Q i

theorem moved_of_ok (v : Valid n ln l) {x0 : Option K} (h0 : moves n Hd l → x0 = some 0) {Ix σ : ℕ → ℕ}
    (hs : Sorts n (wanted n ln Hd l) Ix σ l) (h : reposLoc n ln Hd x0 Ix σ l = .ok l') : Moved n ln Hd l l' := by
  obtain ⟨V, -, xn, -, xp, lev⟩ := C49_valid v h0 hs h
  exact ⟨V, xn, xp, lev, C49_fixed_kept v h0 hs h, C49_depth v h0 hs h,
    fun hpos _ _ hi hj hup hlen hw => C77_flow_carried_partial v hpos h0 hs h hi hj hup hlen hw⟩

theorem Agree.wanted_eq (a : Agree n l l') : wanted n ln Hd l = wanted n ln Hd l' := by
  simp only [wanted, a.x n le_rfl]

theorem Agree.moves_iff (a : Agree n l l') : moves n Hd l ↔ moves n Hd l' := by
  simp only [moves, a.z n le_rfl, a.z 0 (Nat.zero_le _)]

theorem Agree.sorts (a : Agree n l l') {xm : K} {Ix σ : ℕ → ℕ} (hs : Sorts n xm Ix σ l) : Sorts n xm Ix σ l' := by
  have e : ∀ j, j < n + 1 → upd l'.x l'.pos xm j = upd l.x l.pos xm j := by
    intro j hj
    simp only [upd, a.pos, a.x j (by omega)]
  refine ⟨⟨hs.order.lt, hs.order.inj, fun i j hij hj => ?_⟩, ?_⟩
  · rw [e _ (hs.order.lt i (by omega)), e _ (hs.order.lt j hj)]
    exact hs.order.sorted i j hij hj
  · rw [← a.pos]; exact hs.flows

theorem Moved.congr {l₁ l₂ l₁' l₂' : Loc K} (a : Agree n l₁ l₂) (b : Agree n l₁' l₂')
    (h : Moved n ln Hd l₁ l₁') : Moved n ln Hd l₂ l₂' := by
  have q2 := h.valid.pos_lt
  have ep : l₂'.x l₂'.pos = l₁'.x l₁'.pos := by rw [← b.pos, b.x _ q2.le]
  have ez : l₂'.z l₂'.pos = l₁'.z l₁'.pos := by rw [← b.pos, b.z _ q2.le]
  have eh : l₂'.h l₂'.pos = l₁'.h l₁'.pos := by rw [← b.pos, b.h _ q2.le]
  refine ⟨b.valid h.valid, ?_, ?_, ?_, ?_, ?_, ?_⟩
  · rw [← b.x n le_rfl, ← a.x n le_rfl]; exact h.length
  · rw [ep, ← a.wanted_eq]; exact h.position
  · rw [ez, ← a.x n le_rfl]; exact h.level
  · intro j hj hne
    obtain ⟨j', hj', hn', h1, h2, h3⟩ := h.fixed j hj (by rw [a.pos]; exact hne)
    exact ⟨j', hj', by rw [← b.pos]; exact hn', by rw [← b.x _ hj', ← a.x _ hj]; exact h1,
      by rw [← b.z _ hj', ← a.z _ hj]; exact h2, by rw [← b.h _ hj', ← a.h _ hj]; exact h3⟩
  · obtain ⟨c, hc, r⟩ := h.depth
    refine ⟨c, hc, ?_⟩
    rw [ep, eh, ← a.x c (by omega), ← a.x (c + 1) (by omega), ← a.h c (by omega), ← a.h (c + 1) (by omega)]
    exact r
  · intro hpos i j hi hj hup hlen hw
    rw [← b.Q j hj, ← a.Q i hi]
    refine h.flow (fun i hi => by rw [a.dx i hi]; exact hpos i hi) i j hi hj ?_ ?_ ?_
    · rw [a.pos, b.pos]; exact hup
    · rw [b.dx j hj]; exact hlen
    · rw [Within, a.x i (by omega), a.x (i + 1) (by omega), b.x j (by omega), b.x (j + 1) (by omega)]
      exact hw

/-- All superlinks are valid. -/
def Good (n NK : ℕ) (ln : ℕ → Line K) (s : Arr K) : Prop := ∀ k, k < NK → Valid n (ln k) (sub n s k)

/-- The address read for `_x_I[_I_1]` holds `0` if it is that of another superlink. -/
theorem readX0_eq {NK : ℕ} {ln : ℕ → Line K} {s : Arr K} (g : Good n NK ln s) {k : ℕ} (hk : 2 * k < NK) :
    readX0 (NK * (n + 1)) (k * (n + 1)) s = some 0 := by
  have h1 := (g (2 * k) hk).zero
  have e : k * (n + 1) + k * (n + 1) = 2 * k * (n + 1) := by ring
  unfold readX0
  rw [e, if_pos (Nat.mul_lt_mul_of_pos_right hk (by omega))]
  exact congrArg some h1

theorem readX0_none {NK : ℕ} (s : Arr K) {k : ℕ} (hk : NK ≤ 2 * k) :
    readX0 (NK * (n + 1)) (k * (n + 1)) s = none := by
  have e : k * (n + 1) + k * (n + 1) = 2 * k * (n + 1) := by ring
  unfold readX0
  rw [e, if_neg (not_lt.2 (Nat.mul_le_mul_right _ hk))]

section Loop

variable {NK : ℕ} {ln : ℕ → Line K} {Hd : ℕ → K} {rep : ℕ → Bool} {Ix σ : ℕ → ℕ → ℕ} {s s' : Arr K}

theorem loop_ok (g : Good n NK ln s)
    (hs : ∀ k, k < NK → rep k = true → Sorts n (wanted n (ln k) (Hd k) (sub n s k)) (Ix k) (σ k) (sub n s k))
    {N : ℕ} (hN : N ≤ NK) (hk : ∀ k, k < N → rep k = true → moves n (Hd k) (sub n s k) → 2 * k < NK) :
    ∃ s', reposLoop n NK ln Hd rep Ix σ N s = .ok s' ∧ Good n NK ln s' ∧
      (∀ k, k < N → rep k = true → Moved n (ln k) (Hd k) (sub n s k) (sub n s' k)) ∧
      ∀ k, (N ≤ k ∨ rep k = false) → Agree n (sub n s k) (sub n s' k) := by
  induction N with
  | zero =>
    exact ⟨s, rfl, g, fun k hk => by omega, fun k _ => Agree.refl _⟩
  | succ N ih =>
    obtain ⟨s₁, e₁, g₁, m₁, a₁⟩ := ih (by omega) (fun k h => hk k (by omega))
    cases hr : rep N with
    | false =>
      refine ⟨s₁, ?_, g₁, fun k h hrk => ?_, fun k h => a₁ k ?_⟩
      · simp only [reposLoop, e₁, hr, Bool.false_eq_true, if_false]
      · rcases Nat.lt_succ_iff_lt_or_eq.1 h with h | h
        · exact m₁ k h hrk
        · rw [h, hr] at hrk; exact absurd hrk (by simp)
      · rcases h with h | h
        · exact Or.inl (by omega)
        · exact Or.inr h
    | true =>
      have aN := a₁ N (Or.inl le_rfl)
      have vN := g₁ N (by omega)
      have sN : Sorts n (wanted n (ln N) (Hd N) (sub n s₁ N)) (Ix N) (σ N) (sub n s₁ N) := by
        rw [← aN.wanted_eq]; exact aN.sorts (hs N (by omega) hr)
      have x0N : moves n (Hd N) (sub n s₁ N) → readX0 (NK * (n + 1)) (N * (n + 1)) s₁ = some 0 := fun hm =>
        readX0_eq g₁ (hk N (by omega) hr (aN.moves_iff.2 hm))
      obtain ⟨lN, eN⟩ : ∃ lN, reposLoc n (ln N) (Hd N) (readX0 (NK * (n + 1)) (N * (n + 1)) s₁) (Ix N) (σ N)
          (sub n s₁ N) = .ok lN := by
        obtain ⟨hm, r, -, -, eN⟩ := reposLoc_ok vN _ x0N (Ix N) (σ N)
        exact ⟨_, eN⟩
      have mN := moved_of_ok vN x0N sN eN
      refine ⟨s₁.put (N * (n + 1)) (n * N) n N lN, ?_, ?_, ?_, ?_⟩
      · simp only [reposLoop, e₁, hr, if_true]
        rw [eN]
      · intro k h
        by_cases c : k = N
        · subst c; exact (agree_put s₁ k _).valid mN.valid
        · exact (agree_put_ne s₁ c _).valid (g₁ k h)
      · intro k h hrk
        by_cases c : k = N
        · subst c; exact mN.congr aN.symm (agree_put s₁ k _)
        · exact (m₁ k (by omega) hrk).congr (Agree.refl _) (agree_put_ne s₁ c _)
      · intro k h
        have c : k ≠ N := by
          rintro rfl
          rcases h with h | h
          · omega
          · rw [hr] at h; exact absurd h (by simp)
        refine (a₁ k ?_).trans (agree_put_ne s₁ c _)
        rcases h with h | h
        · exact Or.inl (by omega)
        · exact Or.inr h

theorem loop_error {e : RErr} {N M : ℕ} (hNM : N ≤ M) (h : reposLoop n NK ln Hd rep Ix σ N s = .error e) :
    reposLoop n NK ln Hd rep Ix σ M s = .error e := by
  induction M with
  | zero => rw [show N = 0 by omega] at h; exact h
  | succ M ih =>
    rcases Nat.lt_or_ge N (M + 1) with c | c
    · simp only [reposLoop, ih (by omega)]
    · rw [show M + 1 = N by omega]; exact h

/-- **C49 (all superlinks).** If every superlink that has to move is in the first half of the arrays, the
call succeeds; every selected superlink is `Moved`, the others are untouched, all are valid again. -/
theorem C49_all_partial (g : Good n NK ln s)
    (hs : ∀ k, k < NK → rep k = true → Sorts n (wanted n (ln k) (Hd k) (sub n s k)) (Ix k) (σ k) (sub n s k))
    (hk : ∀ k, k < NK → rep k = true → moves n (Hd k) (sub n s k) → 2 * k < NK) :
    ∃ s', reposLoop n NK ln Hd rep Ix σ NK s = .ok s' ∧ Good n NK ln s' ∧
      (∀ k, k < NK → rep k = true → Moved n (ln k) (Hd k) (sub n s k) (sub n s' k)) ∧
      ∀ k, k < NK → rep k = false → Agree n (sub n s k) (sub n s' k) := by
  obtain ⟨s', h1, h2, h3, h4⟩ := loop_ok g hs le_rfl hk
  exact ⟨s', h1, h2, h3, fun k _ hr => h4 k (Or.inr hr)⟩

/-- **C49 (when it works).** The call stays within its arrays exactly if no superlink in the second half of
the arrays has its downstream level between its end inverts. -/
theorem C49_succeeds_iff (g : Good n NK ln s)
    (hs : ∀ k, k < NK → rep k = true → Sorts n (wanted n (ln k) (Hd k) (sub n s k)) (Ix k) (σ k) (sub n s k)) :
    (∃ s', reposLoop n NK ln Hd rep Ix σ NK s = .ok s') ↔
      ∀ k, k < NK → rep k = true → (sub n s k).z n < Hd k → Hd k < (sub n s k).z 0 → 2 * k < NK := by
  classical
  constructor
  · rintro ⟨s', h⟩
    by_contra hc
    push Not at hc
    -- the first superlink that reads outside
    have hex : ∃ k, k < NK ∧ rep k = true ∧ (sub n s k).z n < Hd k ∧ Hd k < (sub n s k).z 0 ∧ NK ≤ 2 * k := hc
    set k := Nat.find hex with hkdef
    obtain ⟨k1, k2, k3, k4, k5⟩ := Nat.find_spec hex
    rw [← hkdef] at k1 k2 k3 k4 k5
    obtain ⟨s₁, e₁, g₁, -, a₁⟩ := loop_ok g hs k1.le (fun k' hk' hr hm => by
      by_contra hcon
      exact Nat.find_min hex hk' ⟨by omega, hr, hm.1, hm.2, by omega⟩)
    have aN := a₁ k (Or.inl le_rfl)
    have hmv : moves n (Hd k) (sub n s₁ k) := aN.moves_iff.1 ⟨k3, k4⟩
    have : reposLoop n NK ln Hd rep Ix σ (k + 1) s = .error .foreignRead := by
      simp only [reposLoop, e₁, k2, if_true]
      rw [readX0_none s₁ k5]
      simp only [reposLoc, target, if_pos hmv]
    rw [loop_error (Nat.succ_le_of_lt k1) this] at h
    exact absurd h (by simp)
  · intro hk
    obtain ⟨s', h, -⟩ := C49_all_partial g hs (fun k h1 h2 h3 => hk k h1 h2 h3.1 h3.2)
    exact ⟨s', h⟩

end Loop

/-- States reached by calls of `reposition_junctions` with any arguments, between which depths and flows
change in any way (`step`). -/
inductive Reach (n NK : ℕ) (ln : ℕ → Line K) : Arr K → Arr K → Prop
  | refl (s) : Reach n NK ln s s
  | call {s s₁ s' : Arr K} (h Q : ℕ → K) (Hd : ℕ → K) (rep : ℕ → Bool) (Ix σ : ℕ → ℕ → ℕ) :
      Reach n NK ln s s₁ →
      (∀ k, k < NK → rep k = true →
        Sorts n (wanted n (ln k) (Hd k) (sub n { s₁ with h := h, Q := Q } k)) (Ix k) (σ k)
          (sub n { s₁ with h := h, Q := Q } k)) →
      reposLoop n NK ln Hd rep Ix σ NK { s₁ with h := h, Q := Q } = .ok s' → Reach n NK ln s s'

/-- **C49 (invariant).** After any number of calls all superlinks are valid and as long as at the start. -/
theorem C49_reach {NK : ℕ} {ln : ℕ → Line K} {s s' : Arr K} (g : Good n NK ln s) (r : Reach n NK ln s s') :
    Good n NK ln s' ∧ ∀ k, k < NK → (sub n s' k).x n = (sub n s k).x n ∧
      ∑ i ∈ Finset.range n, (sub n s' k).dx i = (sub n s k).x n := by
  have main : Good n NK ln s' ∧ ∀ k, k < NK → (sub n s' k).x n = (sub n s k).x n := by
    induction r with
    | refl => exact ⟨g, fun _ _ => rfl⟩
    | @call s₁ s' h Q Hd rep Ix σ r hs hl ih =>
      obtain ⟨g₁, l₁⟩ := ih
      set s₂ : Arr K := { s₁ with h := h, Q := Q } with hs₂
      have g₂ : Good n NK ln s₂ := fun k hk => by
        have v := g₁ k hk
        exact ⟨v.pos_ge, v.pos_lt, v.zero, v.sorted, v.fixed, v.inside, v.len, v.line, v.fall, v.centre, v.zc⟩
      have hk := (C49_succeeds_iff g₂ hs).1 ⟨s', hl⟩
      obtain ⟨s₃, e₃, g₃, m₃, a₃⟩ := C49_all_partial g₂ hs (fun k h1 h2 h3 => hk k h1 h2 h3.1 h3.2)
      rw [hl] at e₃
      injection e₃ with e₃
      subst e₃
      refine ⟨g₃, fun k hk' => ?_⟩
      rw [← l₁ k hk']
      cases hr : rep k with
      | true => exact (m₃ k hk' hr).length
      | false => exact ((a₃ k hk' hr).x n le_rfl).symm
  refine ⟨main.1, fun k hk => ⟨main.2 k hk, ?_⟩⟩
  have v := main.1 k hk
  rw [Finset.sum_congr rfl (fun i hi => v.len i (Finset.mem_range.1 hi)), Finset.sum_range_sub, v.zero, sub_zero]
  exact main.2 k hk

/-- One superlink as constructed with `mobile_elements=True` (superlink.py 1066–1103, 1117): `ix` is the
order found by `np.argsort`, the mobile junction is the one numbered `n` before sorting; no upstream end
stretch (`_dx_uk = 0`, superlink.py 499–501). -/
def built (dx m b0 : K) (n : ℕ) (ix : ℕ → ℕ) (h Q : ℕ → K) : Loc K where
  x j := mobileX dx n (ix j)
  z := genZ m b0 (fun j => mobileX dx n (ix j))
  h := h
  dx := diff (fun j => mobileX dx n (ix j))
  Q := Q
  pos := placeOf n ix n

/-- **C49 (start).** A pipe that falls is valid as constructed, so everything above applies to it. -/
theorem C49_constructed {dx m b0 : K} (hdx : 0 < dx) (hm : m < 0) {n : ℕ} (hn : 2 ≤ n) {ix : ℕ → ℕ}
    (h : IsArgsort (n + 1) (mobileX dx n) ix) (hI Q : ℕ → K) :
    Valid n ⟨m, b0, mobileCentre dx n, m * mobileCentre dx n + b0⟩ (built dx m b0 n ix hI Q) ∧
    (built dx m b0 n ix hI Q).x n = dx := by
  obtain ⟨hpos, hsum, c, hc0, hcn, hcix⟩ := C48_mobile hdx hn h
  obtain ⟨hd0, hd1, -⟩ := mobile_distinct hdx hn
  obtain ⟨q1, q2, q3⟩ := placeOf_spec h (p := n) le_rfl
  have ec : placeOf n ix n = c := (q3 c hcn.le hcix).symm
  have hb : ∀ j, j < n + 1 → 0 ≤ mobileX dx n j ∧ mobileX dx n j ≤ dx := by
    intro j hj
    rcases Nat.lt_succ_iff_lt_or_eq.1 hj with hj | rfl
    · rw [mobileX, if_neg (by omega)]; exact linspace_bounds hdx hn hj
    · rw [mobileX, if_pos rfl]; exact ⟨hd0.le, hd1.le⟩
  have hx0 : mobileX dx n 0 = 0 := by rw [mobileX, if_neg (by omega)]; simp [linspace]
  have e0 : mobileX dx n (ix 0) = 0 :=
    (argsort_first h (q := 0) (by omega) (fun j hj => by rw [hx0]; exact (hb j hj).1)).trans hx0
  have en : mobileX dx n (ix n) = dx := by
    rw [sum_diff] at hsum
    have : mobileX dx n (ix n) - mobileX dx n (ix 0) = dx := hsum
    rw [e0, sub_zero] at this
    exact this
  have strict : ∀ i j, i < j → j ≤ n → mobileX dx n (ix i) < mobileX dx n (ix j) := by
    intro i j hij hj
    have h1 : mobileX dx n (ix i) < mobileX dx n (ix (i + 1)) := sub_pos.1 (hpos i (by omega))
    exact lt_of_lt_of_le h1 (h.sorted _ _ (by omega) (by omega))
  refine ⟨⟨?_, ?_, e0, fun i j hij hj => h.sorted i j hij (by omega), fun i j hij hj _ _ => strict i j hij hj,
    ?_, fun _ _ => rfl, ?_, hm, ⟨hd0, ?_⟩, rfl⟩, en⟩
  · show 1 ≤ placeOf n ix n; omega
  · show placeOf n ix n < n; omega
  · show 0 < mobileX dx n (ix (placeOf n ix n)) ∧ mobileX dx n (ix (placeOf n ix n)) < mobileX dx n (ix n)
    rw [q2, en, mobileX, if_pos rfl]
    exact ⟨hd0, hd1⟩
  · intro j _
    show mobileX dx n (ix j) * m + b0 = m * mobileX dx n (ix j) + b0
    ring
  · show mobileCentre dx n < mobileX dx n (ix n)
    rw [en]; exact hd1

/-- **C49 (violated with end stretches).** With an upstream end stretch of length `a` the positions start at
`a`, so the bed at position `x` has elevation `m (x - a) + b0`. When the mobile junction returns to the centre
(the downstream level is not between the end inverts) it is put at `_xc`, which does not count the stretch,
with the invert of the true centre: its invert is off the bed by `m a`. -/
theorem C49_end_stretch {n : ℕ} {ln : Line K} {Hd a : K} {l l' : Loc K} (hp : l.pos ≤ n)
    (hz : ln.zc = ln.m * ln.xc + ln.b0) (hm : ¬ (l.z n < Hd ∧ Hd < l.z 0)) {x0 : Option K} {Ix σ : ℕ → ℕ}
    (hs : Sorts n ln.xc Ix σ l) (h : reposLoc n ln Hd x0 Ix σ l = .ok l') :
    l'.x l'.pos = ln.xc ∧ l'.z l'.pos = (ln.m * (l'.x l'.pos - a) + ln.b0) + ln.m * a := by
  have hm' : ¬ moves n Hd l := hm
  unfold reposLoc target at h
  rw [if_neg hm'] at h
  simp only at h
  obtain ⟨q1, q2, q3⟩ := placeOf_spec hs.order hp
  cases hd : depthAt n ln.xc l with
  | error e => rw [hd] at h; exact absurd h (by simp)
  | ok hh =>
    rw [hd] at h
    simp only at h
    cases hr : ratio l with
    | error e => rw [hr] at h; exact absurd h (by simp)
    | ok r =>
      rw [hr] at h
      simp only [Except.ok.injEq] at h
      have ex : l'.x l'.pos = ln.xc := by rw [← h]; simp only [sorted, placed, q2, upd, if_true]
      have ez : l'.z l'.pos = ln.zc := by rw [← h]; simp only [sorted, placed, q2, upd, if_true]
      refine ⟨ex, ?_⟩
      rw [ex, ez, hz]
      ring

/-! ### Concrete cases -/

/-- Line falling from `6` to `0` over length `6`. -/
def exLine : Line ℚ := ⟨-1, 6, 3, 3⟩

/-- Three links of length `2`, mobile junction at `pos`. -/
def exLoc (pos : ℕ) : Loc ℚ := ⟨fun j => 2 * j, fun j => 6 - 2 * j, fun j => j, fun _ => 2, fun j => 2 * j + 1, pos⟩

theorem exValid {pos : ℕ} (h1 : 1 ≤ pos) (h2 : pos < 3) : Valid 3 exLine (exLoc pos) := by
  refine ⟨h1, h2, by simp [exLoc], ?_, ?_, ?_, ?_, ?_, by norm_num [exLine], by norm_num [exLine, exLoc],
    by norm_num [exLine]⟩
  · intro i j hij _
    have : (i : ℚ) ≤ j := by exact_mod_cast hij
    simp only [exLoc]; linarith
  · intro i j hij _ _ _
    have : (i : ℚ) < j := by exact_mod_cast hij
    simp only [exLoc]; linarith
  · have a : (1 : ℚ) ≤ pos := by exact_mod_cast h1
    have b : (pos : ℚ) < 3 := by exact_mod_cast h2
    simp only [exLoc]; constructor <;> push_cast <;> linarith
  · intro i _; simp only [exLoc]; push_cast; ring
  · intro j _; simp only [exLoc, exLine]; ring

/-- Exchange the two inner junctions. -/
def exIx : ℕ → ℕ := fun j => if j = 1 then 2 else if j = 2 then 1 else j

theorem exSorts_down : Sorts 3 5 exIx id (exLoc 1) := by
  have hp : placeOf 3 exIx 1 = 2 := by decide
  refine ⟨⟨?_, ?_, ?_⟩, ⟨?_, ?_, ?_⟩⟩
  · intro i hi; interval_cases i <;> decide
  · intro i j hi hj; interval_cases i <;> interval_cases j <;> decide
  · intro i j hij hj
    interval_cases j <;> interval_cases i <;> norm_num [exLoc, upd, exIx]
  · intro i hi; exact hi
  · intro i j _ _ h; exact h
  · intro i j hij hj
    simp only [exLoc, hp]
    interval_cases j <;> interval_cases i <;> norm_num [flowIx]

theorem exSorts_up : Sorts 3 1 exIx id (exLoc 2) := by
  have hp : placeOf 3 exIx 2 = 1 := by decide
  refine ⟨⟨?_, ?_, ?_⟩, ⟨?_, ?_, ?_⟩⟩
  · intro i hi; interval_cases i <;> decide
  · intro i j hi hj; interval_cases i <;> interval_cases j <;> decide
  · intro i j hij hj
    interval_cases j <;> interval_cases i <;> norm_num [exLoc, upd, exIx]
  · intro i hi; exact hi
  · intro i j _ _ h; exact h
  · intro i j hij hj
    simp only [exLoc, hp]
    interval_cases j <;> interval_cases i <;> norm_num [flowIx]

theorem exWanted_down : wanted 3 exLine 1 (exLoc 1) = 5 := by norm_num [wanted, exLine, exLoc]

theorem exWanted_up : wanted 3 exLine 5 (exLoc 2) = 1 := by norm_num [wanted, exLine, exLoc]

/-- The mobile junction passes a fixed junction going downstream. -/
example : ∃ l', reposLoc 3 exLine 1 (some 0) exIx id (exLoc 1) = .ok l' ∧ Moved 3 exLine 1 (exLoc 1) l' ∧
    l'.pos = 2 ∧ l'.x 2 = 5 ∧ l'.z 2 = 1 := by
  have v := exValid (pos := 1) (by norm_num) (by norm_num)
  have hs : Sorts 3 (wanted 3 exLine 1 (exLoc 1)) exIx id (exLoc 1) := by rw [exWanted_down]; exact exSorts_down
  obtain ⟨hm, r, -, -, e⟩ := reposLoc_ok (Hd := 1) v (some 0) (fun _ => rfl) exIx id
  have m := moved_of_ok v (fun _ => rfl) hs e
  have hp : placeOf 3 exIx 1 = 2 := by decide
  have hpos : (sorted 3 r exIx id (placed (exLine.m * wanted 3 exLine 1 (exLoc 1) + exLine.b0)
      (wanted 3 exLine 1 (exLoc 1)) hm (exLoc 1))).pos = 2 := hp
  refine ⟨_, e, m, hpos, ?_, ?_⟩
  · have := m.position; rw [hpos] at this; exact this.trans exWanted_down
  · have := m.level (by norm_num [exLine, exLoc]) (by norm_num [exLine]); rw [hpos] at this; exact this

/-- **C77 (violated).** Moving upstream past a fixed junction: the link just downstream of the mobile
junction lies within the first old link, which carried flow `1`, but receives flow `4`. -/
theorem C77_violated : ∃ l', reposLoc 3 exLine 5 (some 0) exIx id (exLoc 2) = .ok l' ∧
    Within (exLoc 2) 0 (l'.x 1) (l'.x 2) ∧ l'.x 1 < l'.x 2 ∧ (exLoc 2).Q 0 = 1 ∧ l'.Q 1 = 4 := by
  have v := exValid (pos := 2) (by norm_num) (by norm_num)
  have hs : Sorts 3 (wanted 3 exLine 5 (exLoc 2)) exIx id (exLoc 2) := by rw [exWanted_up]; exact exSorts_up
  obtain ⟨hm, r, -, -, e⟩ := reposLoc_ok (Hd := 5) v (some 0) (fun _ => rfl) exIx id
  have hp : placeOf 3 exIx 2 = 1 := by decide
  have hpos : (sorted 3 r exIx id (placed (exLine.m * wanted 3 exLine 5 (exLoc 2) + exLine.b0)
      (wanted 3 exLine 5 (exLoc 2)) hm (exLoc 2))).pos = 1 := hp
  have m := moved_of_ok v (fun _ => rfl) hs e
  have up := C77_flow_upstream v (fun _ => rfl) hs e (by rw [hpos]; norm_num [exLoc])
  have px := m.position
  rw [hpos] at up px
  refine ⟨_, e, up.1, ?_, by norm_num [exLoc], ?_⟩
  · have := positions_eq v (fun _ => rfl) hs e (j := 2) (by norm_num) (by rw [hpos]; norm_num)
    rw [hpos] at this
    refine lt_of_lt_of_eq (lt_of_eq_of_lt (px.trans exWanted_up) ?_) this.symm
    norm_num [exLoc]
  · rw [up.2]
    norm_num [exLoc, mergedFlow]

/-- Two such superlinks one after the other. -/
def exArr : Arr ℚ :=
  ⟨fun I => 2 * (I % 4 : ℕ), fun I => 6 - 2 * (I % 4 : ℕ), fun I => (I % 4 : ℕ), fun _ => 2,
    fun i => 2 * (i % 3 : ℕ) + 1, fun _ => 1⟩

theorem exGood : Good 3 2 (fun _ => exLine) exArr := by
  intro k hk
  refine Agree.valid (l := exLoc 1) ?_ (exValid (by norm_num) (by norm_num))
  refine ⟨?_, ?_, ?_, ?_, ?_, rfl⟩
  all_goals
    intro j hj
    simp only [exLoc, Arr.view, exArr]
  · rw [show (k * (3 + 1) + j) % 4 = j by omega]
  · rw [show (k * (3 + 1) + j) % 4 = j by omega]
  · rw [show (k * (3 + 1) + j) % 4 = j by omega]
  · rw [show (3 * k + j) % 3 = j by omega]

theorem exArr_agree {k : ℕ} : Agree 3 (exLoc 1) (sub 3 exArr k) := by
  refine ⟨?_, ?_, ?_, ?_, ?_, rfl⟩
  all_goals
    intro j hj
    simp only [exLoc, Arr.view, exArr]
  · rw [show (k * (3 + 1) + j) % 4 = j by omega]
  · rw [show (k * (3 + 1) + j) % 4 = j by omega]
  · rw [show (k * (3 + 1) + j) % 4 = j by omega]
  · rw [show (3 * k + j) % 3 = j by omega]

theorem exArr_sorts (k : ℕ) :
    Sorts 3 (wanted 3 exLine 1 (sub 3 exArr k)) exIx id (sub 3 exArr k) := by
  rw [← exArr_agree.wanted_eq, exWanted_down]
  exact exArr_agree.sorts exSorts_down

/-- Repositioning only the first works, repositioning both reads outside the arrays. -/
theorem C49_violated :
    (∃ s', reposLoop 3 2 (fun _ => exLine) (fun _ => 1) (fun k => k == 0) (fun _ => exIx) (fun _ => id) 2 exArr
      = .ok s') ∧
    ¬ ∃ s', reposLoop 3 2 (fun _ => exLine) (fun _ => 1) (fun _ => true) (fun _ => exIx) (fun _ => id) 2 exArr
      = .ok s' := by
  constructor
  · rw [C49_succeeds_iff exGood (fun k _ _ => exArr_sorts k)]
    intro k _ hr _ _
    simp only [beq_iff_eq] at hr
    omega
  · rw [C49_succeeds_iff exGood (fun k _ _ => exArr_sorts k)]
    intro h
    have := h 1 (by norm_num) rfl (by norm_num [Arr.view, exArr]) (by norm_num [Arr.view, exArr])
    omega

/-- A chain of calls exists. -/
example : ∃ s', Reach 3 2 (fun _ => exLine) exArr s' ∧ (sub 3 s' 0).x 3 = 6 := by
  obtain ⟨s', h⟩ := C49_violated.1
  have r : Reach 3 2 (fun _ => exLine) exArr s' :=
    Reach.call exArr.h exArr.Q (fun _ => 1) (fun k => k == 0) (fun _ => exIx) (fun _ => id) (Reach.refl _)
      (fun k _ _ => exArr_sorts k) h
  refine ⟨s', r, ?_⟩
  rw [((C49_reach exGood r).2 0 (by norm_num)).1]
  norm_num [Arr.view, exArr]

/-- The pipe of `exLoc 1` behind an end stretch of length `1`. A call with the downstream level above the
pipe leaves the mobile junction at position `3`, where the bed is at `4`, but gives it the invert `3`. -/
def exStretch : Loc ℚ :=
  ⟨fun j => 2 * j + 1, fun j => 6 - 2 * j, fun j => j, fun _ => 2, fun j => 2 * j + 1, 1⟩

example : ∃ l', reposLoc 3 exLine 7 none id id exStretch = .ok l' ∧
    l'.z l'.pos = exLine.m * (l'.x l'.pos - 1) + exLine.b0 - 1 := by
  have hs : Sorts 3 exLine.xc id id exStretch := by
    have hp : placeOf 3 id 1 = 1 := by decide
    refine ⟨⟨fun _ h => h, fun _ _ _ _ h => h, ?_⟩, ⟨fun _ h => h, fun _ _ _ _ h => h, ?_⟩⟩
    · intro i j hij hj
      interval_cases j <;> interval_cases i <;> norm_num [exStretch, upd, exLine]
    · intro i j hij hj
      simp only [exStretch, hp]
      interval_cases j <;> interval_cases i <;> norm_num [flowIx]
  have hc : searchsorted 4 exStretch.x 3 = 1 := by
    refine searchsorted_eq ?_ ?_ ?_ <;> norm_num [exStretch]
  have h : ∃ l', reposLoc 3 exLine 7 none id id exStretch = .ok l' := by
    have h1 : target 3 exLine 7 none exStretch = .ok (3, 3) := by
      rw [target, if_neg (by norm_num [moves, exStretch])]; rfl
    have h2 : depthAt 3 3 exStretch = .ok 1 := by
      simp only [depthAt, hc]
      norm_num [exStretch]
    have h3 : ratio exStretch = .ok (1 / 2) := by norm_num [ratio, exStretch]
    refine ⟨sorted 3 (1 / 2) id id (placed 3 3 1 exStretch), ?_⟩
    simp only [reposLoc, h1, h2, h3]
  obtain ⟨l', h⟩ := h
  have := C49_end_stretch (a := 1) (by norm_num [exStretch]) (by norm_num [exLine])
    (by norm_num [exStretch]) hs h
  refine ⟨l', h, this.2.trans ?_⟩
  norm_num [exLine]
  ring

end Pipedream.Reposition
