import Verif.VisualModel
import Mathlib.Tactic.Linarith
import Mathlib.Tactic.FieldSimp
import Mathlib.Tactic.Ring
import Mathlib.Tactic.NormNum
import Mathlib.Data.Rat.Defs

/-!
# C136, C137: what the plots show
-/

namespace Pipedream.Visual

/-! ### The pairs of a path and the superlinks found for them -/

section Lookup
variable {K : Type*}

private theorem lookup_aux (p : Prof K) (key : ℕ × ℕ) (n : ℕ) :
    ∀ o, (List.range n).foldl (fun o k => if (p.sj0 k, p.sj1 k) = key then some k else o) none = o →
      (∀ k, o = some k ↔ k < n ∧ (p.sj0 k, p.sj1 k) = key ∧
        ∀ k', k < k' → k' < n → (p.sj0 k', p.sj1 k') ≠ key) := by
  induction n with
  | zero => intro o h k; simp at h; subst h; simp
  | succ n ih =>
    intro o h k
    rw [List.range_succ, List.foldl_append] at h
    simp only [List.foldl_cons, List.foldl_nil] at h
    have ih' := ih _ rfl
    by_cases hn : (p.sj0 n, p.sj1 n) = key
    · rw [if_pos hn] at h
      subst h
      constructor
      · intro e
        cases e
        exact ⟨Nat.lt_succ_self _, hn, fun k' h1 h2 => absurd h2 (by omega)⟩
      · rintro ⟨h1, h2, h3⟩
        by_contra hne
        have : k ≠ n := fun e => hne (by rw [e])
        exact h3 n (by omega) (by omega) hn
    · rw [if_neg hn] at h
      rw [← h, ih' k]
      constructor
      · rintro ⟨h1, h2, h3⟩
        refine ⟨by omega, h2, fun k' h4 h5 => ?_⟩
        rcases Nat.lt_succ_iff_lt_or_eq.mp h5 with h6 | h6
        · exact h3 k' h4 h6
        · rw [h6]; exact hn
      · rintro ⟨h1, h2, h3⟩
        have : k ≠ n := fun e => hn (by rw [← e]; exact h2)
        exact ⟨by omega, h2, fun k' h4 h5 => h3 k' h4 (by omega)⟩

/-- C136: the superlink shown between two superjunctions is the last one listed with these ends in this order. -/
theorem C136_lookup (p : Prof K) (a b k : ℕ) :
    lookup p (a, b) = some k ↔
      k < p.NK ∧ p.sj0 k = a ∧ p.sj1 k = b ∧ ∀ k', k < k' → k' < p.NK → ¬(p.sj0 k' = a ∧ p.sj1 k' = b) := by
  unfold lookup
  rw [lookup_aux p (a, b) p.NK _ rfl k]
  simp only [Prod.mk.injEq, ne_eq, and_assoc]

/-- C136: nothing is shown exactly if no superlink is listed with these ends in this order. -/
theorem C136_lookup_none (p : Prof K) (a b : ℕ) :
    lookup p (a, b) = none ↔ ∀ k < p.NK, ¬(p.sj0 k = a ∧ p.sj1 k = b) := by
  constructor
  · intro h k hk hab
    have hne : ∀ n, (∃ k < n, p.sj0 k = a ∧ p.sj1 k = b) →
        ∃ k < n, (p.sj0 k = a ∧ p.sj1 k = b) ∧ ∀ k', k < k' → k' < n → ¬(p.sj0 k' = a ∧ p.sj1 k' = b) := by
      intro n
      induction n with
      | zero => rintro ⟨k, hk, -⟩; omega
      | succ n ih =>
        rintro ⟨k, hk, e⟩
        by_cases hn : p.sj0 n = a ∧ p.sj1 n = b
        · exact ⟨n, by omega, hn, fun k' h1 h2 => by omega⟩
        · have : k ≠ n := fun h => hn (h ▸ e)
          obtain ⟨m, hm, e', l⟩ := ih ⟨k, by omega, e⟩
          refine ⟨m, by omega, e', fun k' h1 h2 => ?_⟩
          rcases Nat.lt_succ_iff_lt_or_eq.mp h2 with h3 | h3
          · exact l k' h1 h3
          · rw [h3]; exact hn
    obtain ⟨m, hm, e, l⟩ := hne p.NK ⟨k, hk, hab⟩
    have := (C136_lookup p a b m).mpr ⟨hm, e.1, e.2, l⟩
    rw [h] at this
    exact absurd this (by simp)
  · intro h
    rcases hl : lookup p (a, b) with _ | k
    · rfl
    · have := (C136_lookup p a b k).mp hl
      exact absurd ⟨this.2.1, this.2.2.1⟩ (h k this.1)

end Lookup

variable {K : Type*} [Field K] [LinearOrder K]

/-! ### What is drawn -/

/-- Specification: water in a superjunction from bed to head, `w` wide. -/
def box (p : Prof K) (j : ℕ) (x w : K) : Shape K :=
  .junction j [(x, p.z j), (x, p.H j), (x + w, p.H j), (x + w, p.z j)]

/-- Specification: water in a superlink, bed and surface at each junction. -/
def band (p : Prof K) (k : ℕ) (x : K) : Shape K :=
  .link k ((p.first k :: p.rest k).flatMap fun q => [(q.x + x, q.z), (q.x + x, q.z + q.h)])

/-- Specification: the shapes of a path starting at `x`, from left to right. -/
def drawn (p : Prof K) (w : K) : K → List ℕ → List (Shape K)
  | _, [] => []
  | x, [j] => [box p j x w]
  | x, j :: j' :: r =>
    box p j x w ::
      match lookup p (j, j') with
      | none => drawn p w (x + w) (j' :: r)
      | some k => band p k (x + w) :: drawn p w (x + w + p.dx k) (j' :: r)

/-- Specification: the width of a path. -/
def extent (p : Prof K) (w : K) : List ℕ → K
  | [] => 0
  | [_] => w
  | j :: j' :: r =>
    w + (match lookup p (j, j') with
      | none => 0
      | some k => p.dx k) + extent p w (j' :: r)

private theorem fold_drawn (p : Prof K) (w : K) (r : List ℕ) : ∀ (j : ℕ) (s : St K) (d : ℕ × ℕ), d.2 = j →
    let f := ((j :: r).zip r).foldl (body p w) s
    let last := ((((j :: r).zip r).getLast?).getD d).2
    f.shapes ++ [sjShape p last f.x w] = s.shapes ++ drawn p w s.x (j :: r) ∧
      f.x + w = s.x + extent p w (j :: r) := by
  induction r with
  | nil => intro j s d hd; simp [drawn, extent, hd, sjShape, box]
  | cons j' r ih =>
    intro j s d hd
    have h := ih j' (body p w s (j, j')) (j, j') rfl
    simp only [List.zip_cons_cons, List.foldl_cons]
    have hl : ((((j, j') :: (j' :: r).zip r).getLast?).getD d) = (((j' :: r).zip r).getLast?).getD (j, j') := by
      rw [List.getLast?_cons]; simp
    rw [hl]
    refine ⟨h.1.trans ?_, h.2.trans ?_⟩
    · rcases e : lookup p (j, j') with _ | k
      · simp [body, drawn, e, sjShape, linkShape, box, band, Prof.pts]
      · simp [body, drawn, e, sjShape, linkShape, box, band, Prof.pts]
    · rcases e : lookup p (j, j') with _ | k
      · simp [body, extent, e]; ring
      · simp [body, extent, e]; ring

/-- C136: a path needs two superjunctions; anything shorter raises. -/
theorem C136_needs_two (p : Prof K) (js : List ℕ) (w : K) : plotProfile p js w = none ↔ js.length < 2 := by
  rcases js with _ | ⟨j, _ | ⟨j', r⟩⟩
  · simp [plotProfile]
  · simp [plotProfile]
  · rcases h : ((j :: j' :: r).zip (j' :: r)).getLast? with _ | l
    · rw [List.getLast?_eq_none_iff] at h; simp at h
    · simp only [plotProfile, List.tail_cons, h]; simp

/-- C136: what is drawn, from left to right, and how wide the axis is. -/
theorem C136_drawn (p : Prof K) (js : List ℕ) (w : K) (out : List (Shape K) × Lims K)
    (h : plotProfile p js w = some out) :
    out.1 = drawn p w 0 js ∧ out.2.x0 = -(2 / 100 * extent p w js) ∧
      out.2.x1 = extent p w js + 2 / 100 * extent p w js := by
  rcases js with _ | ⟨j, r⟩
  · simp [plotProfile] at h
  · unfold plotProfile at h
    simp only [List.tail_cons] at h
    rcases hl : ((j :: r).zip r).getLast? with _ | l
    · rw [hl] at h; simp at h
    · rw [hl] at h
      have f := fold_drawn p w r j ⟨0, maxOf p.H (p.M - 1), minOf p.H (p.M - 1), []⟩ (j, j) rfl
      simp only [hl, Option.getD_some] at f
      simp only [Option.some.injEq] at h
      subst h
      refine ⟨by simpa using f.1, ?_, ?_⟩
      · simp only [f.2]; ring
      · simp only [f.2]; ring

def Shape.sj? : Shape K → Option ℕ
  | .junction j _ => some j
  | .link _ _ => none

def Shape.link? : Shape K → Option ℕ
  | .junction _ _ => none
  | .link k _ => some k

/-- C136: the superjunctions shown are those of the path, in order. -/
theorem C136_superjunctions (p : Prof K) (js : List ℕ) (w : K) (out : List (Shape K) × Lims K)
    (h : plotProfile p js w = some out) : out.1.filterMap Shape.sj? = js := by
  rw [(C136_drawn p js w out h).1]
  suffices ∀ (js : List ℕ) (x : K), (drawn p w x js).filterMap Shape.sj? = js from this js 0
  intro js
  induction js with
  | nil => intro x; rfl
  | cons j r ih =>
    intro x
    rcases r with _ | ⟨j', r⟩
    · rfl
    · rcases e : lookup p (j, j') with _ | k
      · simp only [drawn, e, List.filterMap_cons, box, Shape.sj?, ih]
      · simp only [drawn, e, List.filterMap_cons, box, band, Shape.sj?, ih]

/-- C136: the superlinks shown are those found for the successive pairs of the path, in order. -/
theorem C136_superlinks (p : Prof K) (js : List ℕ) (w : K) (out : List (Shape K) × Lims K)
    (h : plotProfile p js w = some out) : out.1.filterMap Shape.link? = (js.zip js.tail).filterMap (lookup p) := by
  rw [(C136_drawn p js w out h).1]
  suffices ∀ (js : List ℕ) (x : K),
      (drawn p w x js).filterMap Shape.link? = (js.zip js.tail).filterMap (lookup p) from this js 0
  intro js
  induction js with
  | nil => intro x; rfl
  | cons j r ih =>
    intro x
    rcases r with _ | ⟨j', r⟩
    · rfl
    · have ih' := ih
      simp only [List.tail_cons] at ih'
      rcases e : lookup p (j, j') with _ | k
      · simp only [drawn, e, List.filterMap_cons, box, Shape.link?, List.tail_cons, List.zip_cons_cons, ih']
      · simp only [drawn, e, List.filterMap_cons, box, band, Shape.link?, List.tail_cons,
          List.zip_cons_cons, ih']

/-- C136: a superlink followed against its direction (the constructor turns superlinks to run downhill) is left out, although
the two superjunctions are connected: going up a chain shows no superlink at all. -/
theorem C136_upstream (p : Prof K) (js : List ℕ) (w : K) (out : List (Shape K) × Lims K)
    (h : plotProfile p js w = some out)
    (hup : ∀ ab ∈ js.zip js.tail, ∀ k < p.NK, ¬(p.sj0 k = ab.1 ∧ p.sj1 k = ab.2)) :
    out.1.filterMap Shape.link? = [] := by
  rw [C136_superlinks p js w out h, List.filterMap_eq_nil_iff]
  rintro ⟨a, b⟩ hab
  exact (C136_lookup_none p a b).mpr (hup _ hab)

/-- C136: of superlinks between the same two superjunctions at most one is shown, never an earlier one. -/
theorem C136_parallel (p : Prof K) (js : List ℕ) (w : K) (out : List (Shape K) × Lims K)
    (h : plotProfile p js w = some out) (k k' : ℕ) (hk : k < k') (hk' : k' < p.NK)
    (h0 : p.sj0 k = p.sj0 k') (h1 : p.sj1 k = p.sj1 k') : k ∉ out.1.filterMap Shape.link? := by
  rw [C136_superlinks p js w out h, List.mem_filterMap]
  rintro ⟨⟨a, b⟩, -, e⟩
  obtain ⟨-, e0, e1, l⟩ := (C136_lookup p a b k).mp e
  exact l k' hk hk' ⟨h0 ▸ e0, h1 ▸ e1⟩

/-! ### Whether it fits -/

section Ordered
variable [IsStrictOrderedRing K]

private theorem minL_le (l : List K) : ∀ a, minL a l ≤ a ∧ ∀ b ∈ l, minL a l ≤ b := by
  induction l with
  | nil => intro a; simp [minL]
  | cons c l ih =>
    intro a
    have := ih (min a c)
    unfold minL at this ⊢
    simp only [List.foldl_cons, List.mem_cons]
    refine ⟨this.1.trans (min_le_left _ _), ?_⟩
    rintro b (rfl | hb)
    · exact this.1.trans (min_le_right _ _)
    · exact this.2 b hb

private theorem le_maxL (l : List K) : ∀ a, a ≤ maxL a l ∧ ∀ b ∈ l, b ≤ maxL a l := by
  induction l with
  | nil => intro a; simp [maxL]
  | cons c l ih =>
    intro a
    have := ih (max a c)
    unfold maxL at this ⊢
    simp only [List.foldl_cons, List.mem_cons]
    refine ⟨(le_max_left _ _).trans this.1, ?_⟩
    rintro b (rfl | hb)
    · exact (le_max_right _ _).trans this.1
    · exact this.2 b hb

/-- All shapes so far lie in the box of the loop's state. -/
private def Inside (s : St K) : Prop :=
  0 ≤ s.x ∧ ∀ sh ∈ s.shapes, ∀ c ∈ sh.corners, 0 ≤ c.1 ∧ c.1 ≤ s.x ∧ s.ymin ≤ c.2 ∧ c.2 ≤ s.ymax

private theorem inside_body (p : Prof K) (w : K) (hw : 0 ≤ w) (s : St K) (a b k : ℕ) (hs : Inside s)
    (hk : lookup p (a, b) = some k) (ha : p.z a ≤ p.H a)
    (hh : ∀ q ∈ p.pts k, 0 ≤ q.h ∧ 0 ≤ q.x ∧ q.x ≤ p.dx k) : Inside (body p w s (a, b)) ∧
      (body p w s (a, b)).ymin ≤ p.z b ∧ p.H b ≤ (body p w s (a, b)).ymax := by
  have hd : 0 ≤ p.dx k := by
    have := hh (p.first k) (by simp [Prof.pts])
    linarith [this.2.1, this.2.2]
  have hz := minL_le ((p.rest k).map Pt.z) (p.first k).z
  have hm := le_maxL ((p.rest k).map fun q => q.z + q.h) ((p.first k).z + (p.first k).h)
  set zm := minL (p.first k).z ((p.rest k).map Pt.z)
  set hx := maxL ((p.first k).z + (p.first k).h) ((p.rest k).map fun q => q.z + q.h)
  have e : body p w s (a, b) =
      { x := s.x + w + p.dx k
        shapes := s.shapes ++ [sjShape p a s.x w] ++ [linkShape p k (s.x + w)]
        ymin := min (min (min s.ymin (p.z a)) (p.z b)) zm
        ymax := max (max (max s.ymax (p.H a)) (p.H b)) hx } := by
    simp only [body, hk]; rfl
  have h1 : min (min (min s.ymin (p.z a)) (p.z b)) zm ≤ s.ymin :=
    (min_le_left _ _).trans ((min_le_left _ _).trans (min_le_left _ _))
  have h2 : min (min (min s.ymin (p.z a)) (p.z b)) zm ≤ p.z a :=
    (min_le_left _ _).trans ((min_le_left _ _).trans (min_le_right _ _))
  have h3 : min (min (min s.ymin (p.z a)) (p.z b)) zm ≤ p.z b := (min_le_left _ _).trans (min_le_right _ _)
  have h4 : min (min (min s.ymin (p.z a)) (p.z b)) zm ≤ zm := min_le_right _ _
  have h5 : s.ymax ≤ max (max (max s.ymax (p.H a)) (p.H b)) hx :=
    (le_max_left _ _).trans ((le_max_left _ _).trans (le_max_left _ _))
  have h6 : p.H a ≤ max (max (max s.ymax (p.H a)) (p.H b)) hx :=
    (le_max_right _ _).trans ((le_max_left _ _).trans (le_max_left _ _))
  have h7 : p.H b ≤ max (max (max s.ymax (p.H a)) (p.H b)) hx := (le_max_right _ _).trans (le_max_left _ _)
  have h8 : hx ≤ max (max (max s.ymax (p.H a)) (p.H b)) hx := le_max_right _ _
  rw [e]
  refine ⟨⟨by have := hs.1; dsimp only; linarith, ?_⟩, h3, h7⟩
  generalize min (min (min s.ymin (p.z a)) (p.z b)) zm = lo at *
  generalize max (max (max s.ymax (p.H a)) (p.H b)) hx = hi at *
  intro sh hsh c hc
  have hx0 := hs.1
  simp only [List.mem_append, List.mem_singleton] at hsh
  rcases hsh with (hsh | rfl) | rfl
  · obtain ⟨i1, i2, i3, i4⟩ := hs.2 sh hsh c hc
    exact ⟨i1, by dsimp only; linarith, h1.trans i3, i4.trans h5⟩
  · simp only [sjShape, Shape.corners, List.mem_cons, List.not_mem_nil, or_false] at hc
    rcases hc with rfl | rfl | rfl | rfl <;> refine ⟨?_, ?_, ?_, ?_⟩ <;> dsimp only <;> linarith
  · simp only [linkShape, Shape.corners, List.mem_flatMap, List.mem_cons, List.not_mem_nil, or_false] at hc
    obtain ⟨q, hq, hc⟩ := hc
    obtain ⟨g1, g2, g3⟩ := hh q hq
    have gz : zm ≤ q.z ∧ q.z + q.h ≤ hx := by
      rcases List.mem_cons.mp hq with rfl | hq'
      · exact ⟨hz.1, hm.1⟩
      · exact ⟨hz.2 _ (List.mem_map_of_mem hq'), hm.2 _ (List.mem_map.mpr ⟨q, hq', rfl⟩)⟩
    rcases hc with rfl | rfl <;> refine ⟨?_, ?_, ?_, ?_⟩ <;> dsimp only <;> linarith [gz.1, gz.2]

private theorem inside_fold (p : Prof K) (w : K) (hw : 0 ≤ w) (keys : List (ℕ × ℕ)) : ∀ s : St K, Inside s →
    (∀ ab ∈ keys, p.z ab.1 ≤ p.H ab.1 ∧ ∃ k, lookup p ab = some k ∧
      ∀ q ∈ p.pts k, 0 ≤ q.h ∧ 0 ≤ q.x ∧ q.x ≤ p.dx k) →
    Inside (keys.foldl (body p w) s) ∧ ∀ l, keys.getLast? = some l →
      (keys.foldl (body p w) s).ymin ≤ p.z l.2 ∧ p.H l.2 ≤ (keys.foldl (body p w) s).ymax := by
  induction keys with
  | nil => intro s hs _; exact ⟨hs, by simp⟩
  | cons ab keys ih =>
    intro s hs hk
    obtain ⟨a, b⟩ := ab
    obtain ⟨hz, k, hl, hp⟩ := hk (a, b) (by simp)
    have hb := inside_body p w hw s a b k hs hl hz hp
    have h := ih (body p w s (a, b)) hb.1 (fun x hx => hk x (by simp [hx]))
    simp only [List.foldl_cons]
    refine ⟨h.1, fun l hl => ?_⟩
    rcases keys with _ | ⟨ab', keys⟩
    · simp at hl; subst hl; exact hb.2
    · exact h.2 l (by simpa using hl)

/-- C136: everything drawn lies within the axes, if each pair of the path is joined by a superlink listed in that direction,
no depth is negative, and the junctions lie on the superlink's length (no upstream end stretch). -/
theorem C136_fits_partial (p : Prof K) (js : List ℕ) (w : K) (hw : 0 ≤ w) (out : List (Shape K) × Lims K)
    (h : plotProfile p js w = some out) (hj : ∀ j ∈ js, p.z j ≤ p.H j)
    (hk : ∀ ab ∈ js.zip js.tail, ∃ k < p.NK, p.sj0 k = ab.1 ∧ p.sj1 k = ab.2)
    (hp : ∀ k < p.NK, ∀ q ∈ p.pts k, 0 ≤ q.h ∧ 0 ≤ q.x ∧ q.x ≤ p.dx k) :
    ∀ sh ∈ out.1, ∀ c ∈ sh.corners,
      out.2.x0 ≤ c.1 ∧ c.1 ≤ out.2.x1 ∧ out.2.y0 ≤ c.2 ∧ c.2 ≤ out.2.y1 := by
  unfold plotProfile at h
  simp only at h
  rcases hl : (js.zip js.tail).getLast? with _ | l
  · rw [hl] at h; simp at h
  · rw [hl] at h
    simp only [Option.some.injEq] at h
    have hin := inside_fold p w hw (js.zip js.tail) ⟨0, maxOf p.H (p.M - 1), minOf p.H (p.M - 1), []⟩
      ⟨le_rfl, by simp⟩ (by
        rintro ⟨a, b⟩ hab
        refine ⟨hj a (List.of_mem_zip hab).1, ?_⟩
        rcases e : lookup p (a, b) with _ | k
        · obtain ⟨k, hk1, hk2⟩ := hk _ hab
          exact absurd hk2 ((C136_lookup_none p a b).mp e k hk1)
        · exact ⟨k, rfl, hp k ((C136_lookup p a b k).mp e).1⟩)
    have hlast : l.2 ∈ js := List.mem_of_mem_tail (List.of_mem_zip (a := l.1) (b := l.2)
      (List.mem_of_getLast? hl)).2
    have hz := hj _ hlast
    have hy := hin.2 l hl
    generalize (js.zip js.tail).foldl (body p w) ⟨0, maxOf p.H (p.M - 1), minOf p.H (p.M - 1), []⟩ = s at h hin hy
    subst h
    have hx := hin.1.1
    have hyy : s.ymin ≤ s.ymax := by linarith [hy.1, hy.2]
    intro sh hsh c hc
    simp only [List.mem_append, List.mem_singleton] at hsh
    have key : 0 ≤ c.1 ∧ c.1 ≤ s.x + w ∧ s.ymin ≤ c.2 ∧ c.2 ≤ s.ymax := by
      rcases hsh with hsh | rfl
      · obtain ⟨i1, i2, i3, i4⟩ := hin.1.2 sh hsh c hc
        exact ⟨i1, by linarith, i3, i4⟩
      · simp only [sjShape, Shape.corners, List.mem_cons, List.not_mem_nil, or_false] at hc
        rcases hc with rfl | rfl | rfl | rfl <;> refine ⟨?_, ?_, ?_, ?_⟩ <;> dsimp only <;> linarith [hy.1, hy.2]
    obtain ⟨k1, k2, k3, k4⟩ := key
    refine ⟨?_, ?_, ?_, ?_⟩ <;> dsimp only <;> linarith

private theorem fold_none (p : Prof K) (w : K) (keys : List (ℕ × ℕ)) : ∀ s : St K,
    (∀ ab ∈ keys, lookup p ab = none) →
    (keys.foldl (body p w) s).ymin = s.ymin ∧ (keys.foldl (body p w) s).ymax = s.ymax := by
  induction keys with
  | nil => intro s _; exact ⟨rfl, rfl⟩
  | cons ab keys ih =>
    intro s h
    have := ih (body p w s ab) (fun x hx => h x (by simp [hx]))
    have e := h ab (by simp)
    simp only [List.foldl_cons]
    rw [this.1, this.2]
    simp [body, e]

theorem minOf_le (f : ℕ → K) (n i : ℕ) (h : i ≤ n) : minOf f n ≤ f i := by
  induction n with
  | zero => rw [Nat.le_zero.mp h]; exact le_rfl
  | succ n ih =>
    rcases Nat.le_succ_iff.mp h with h | rfl
    · exact (min_le_left _ _).trans (ih h)
    · exact min_le_right _ _

theorem le_maxOf (f : ℕ → K) (n i : ℕ) (h : i ≤ n) : f i ≤ maxOf f n := by
  induction n with
  | zero => rw [Nat.le_zero.mp h]; exact le_rfl
  | succ n ih =>
    rcases Nat.le_succ_iff.mp h with h | rfl
    · exact (ih h).trans (le_max_left _ _)
    · exact le_max_right _ _

theorem minOf_mem (f : ℕ → K) (n : ℕ) : ∃ i ≤ n, minOf f n = f i := by
  induction n with
  | zero => exact ⟨0, le_rfl, rfl⟩
  | succ n ih =>
    obtain ⟨i, hi, e⟩ := ih
    rcases min_choice (minOf f n) (f (n + 1)) with h | h
    · exact ⟨i, by omega, h.trans e⟩
    · exact ⟨n + 1, le_rfl, h⟩

/-- C136: if no pair of the path is joined by a superlink listed in that direction (going upstream, say), the vertical axis is
upside down: the limit set as lower is at least every head of the model and the one set as upper at most every head. -/
theorem C136_upside_down (p : Prof K) (js : List ℕ) (w : K) (out : List (Shape K) × Lims K)
    (h : plotProfile p js w = some out)
    (hup : ∀ ab ∈ js.zip js.tail, ∀ k < p.NK, ¬(p.sj0 k = ab.1 ∧ p.sj1 k = ab.2)) :
    ∀ j < p.M, out.2.y1 ≤ p.H j ∧ p.H j ≤ out.2.y0 := by
  intro j hj
  unfold plotProfile at h
  simp only at h
  rcases hl : (js.zip js.tail).getLast? with _ | l
  · rw [hl] at h; simp at h
  · rw [hl] at h
    simp only [Option.some.injEq] at h
    have hn := fold_none p w (js.zip js.tail) ⟨0, maxOf p.H (p.M - 1), minOf p.H (p.M - 1), []⟩ (by
      rintro ⟨a, b⟩ hab
      exact (C136_lookup_none p a b).mpr (hup _ hab))
    subst h
    dsimp only
    rw [hn.1, hn.2]
    have h1 := minOf_le p.H (p.M - 1) j (by omega)
    have h2 := le_maxOf p.H (p.M - 1) j (by omega)
    constructor <;> dsimp only <;> linarith

/-- C136: two superjunctions and their superlink, whose junctions start at the end stretch `du`: the superlink is drawn from
`w + du` to `w + L + du`, so it leaves a gap of `du` after the first superjunction and overlaps the second by `du`. -/
theorem C136_overlap (p : Prof K) (a b k : ℕ) (w du : K) (lens : List K) (hk : lookup p (a, b) = some k)
    (hd : p.dx k = lengthOf lens) (hx : (p.pts k).map Pt.x = positions du lens)
    (out : List (Shape K) × Lims K) (h : plotProfile p [a, b] w = some out) :
    out.1 = [box p a 0 w, band p k w, box p b (w + lengthOf lens) w] ∧
      ((p.pts k).map fun q => q.x + w).head? = some (w + du) ∧
      ((p.pts k).map fun q => q.x + w).getLast? = some (w + lengthOf lens + du) := by
  have hm : ((p.pts k).map fun q => q.x + w) = (positions du lens).map (· + w) := by
    rw [← hx, List.map_map]; rfl
  have hlast : ∀ (lens : List K) (d : K), (positions d lens).getLast? = some (d + lens.sum) := by
    intro lens
    induction lens with
    | nil => intro d; simp [positions]
    | cons l lens ih =>
      intro d
      have := ih (d + l)
      unfold positions at this ⊢
      rw [List.scanl_cons, List.getLast?_cons, this]
      simp [add_assoc]
  refine ⟨?_, ?_, ?_⟩
  · rw [(C136_drawn p [a, b] w out h).1]
    simp [drawn, hk, hd]
  · rw [hm, List.head?_map]
    have : (positions du lens).head? = some du := by unfold positions; cases lens <;> simp
    rw [this]; simp [add_comm]
  · rw [hm, List.getLast?_map, hlast]
    simp only [Option.map_some, lengthOf]
    congr 1; ring

/-! ### Maps -/

/-- C137: neighbouring junctions are as far apart on the map as on the ground, in proportion. -/
theorem C137_spacing (a b x y dx : K) : mapAt a b y dx - mapAt a b x dx = (y - x) / dx * (b - a) := by
  unfold mapAt; ring

private theorem positions_bounds (lens : List K) (hl : ∀ l ∈ lens, 0 ≤ l) : ∀ d, ∀ x ∈ positions d lens,
    d ≤ x ∧ x ≤ d + lens.sum := by
  induction lens with
  | nil => intro d x hx; simp [positions] at hx; simp [hx]
  | cons l lens ih =>
    intro d x hx
    have hl0 := hl l (by simp)
    have hs : 0 ≤ lens.sum := List.sum_nonneg fun y hy => hl y (by simp [hy])
    unfold positions at hx
    rw [List.scanl_cons] at hx
    rcases List.mem_cons.mp hx with rfl | hx
    · simp only [List.sum_cons]; exact ⟨le_rfl, by linarith⟩
    · have := ih (fun y hy => hl y (by simp [hy])) (d + l) x hx
      simp only [List.sum_cons]
      exact ⟨by linarith [this.1], by linarith [this.2]⟩

theorem positions_ends (lens : List K) : ∀ d : K,
    (positions d lens).head? = some d ∧ (positions d lens).getLast? = some (d + lengthOf lens) := by
  induction lens with
  | nil => intro d; simp [positions, lengthOf]
  | cons l lens ih =>
    intro d
    have := (ih (d + l)).2
    unfold positions at this ⊢
    rw [List.scanl_cons, List.getLast?_cons, this]
    simp [lengthOf, add_assoc]

/-- C137: the first and the last junction of a superlink are shown at its superjunctions if it has no upstream end stretch, and
otherwise (superjunctions apart in this coordinate) neither is. -/
theorem C137_ends (a b du : K) (lens : List K) (hL : 0 < lengthOf lens) (hab : a ≠ b) :
    (((positions du lens).map fun x => mapAt a b x (lengthOf lens)).head? = some a ↔ du = 0) ∧
      (((positions du lens).map fun x => mapAt a b x (lengthOf lens)).getLast? = some b ↔ du = 0) := by
  have hp := positions_ends lens du
  have hne : lengthOf lens ≠ 0 := hL.ne'
  have hba : b - a ≠ 0 := sub_ne_zero.mpr (Ne.symm hab)
  rw [List.head?_map, List.getLast?_map, hp.1, hp.2]
  simp only [Option.map_some, Option.some.injEq, mapAt]
  constructor
  · constructor
    · intro h
      have : du / lengthOf lens * (b - a) = 0 := by linarith
      rcases mul_eq_zero.mp this with h | h
      · exact (div_eq_zero_iff.mp h).resolve_right hne
      · exact absurd h hba
    · rintro rfl; simp
  · rw [add_div, div_self hne]
    constructor
    · intro h
      have : du / lengthOf lens * (b - a) = 0 := by linarith
      rcases mul_eq_zero.mp this with h | h
      · exact (div_eq_zero_iff.mp h).resolve_right hne
      · exact absurd h hba
    · rintro rfl; simp

/-- C137: without upstream end stretch every junction is shown between the two superjunctions. -/
theorem C137_between_partial (a b : K) (hab : a ≤ b) (lens : List K) (hl : ∀ l ∈ lens, 0 ≤ l)
    (hL : 0 < lengthOf lens) :
    ∀ x ∈ positions 0 lens, a ≤ mapAt a b x (lengthOf lens) ∧ mapAt a b x (lengthOf lens) ≤ b := by
  intro x hx
  obtain ⟨h1, h2⟩ := positions_bounds lens hl 0 x hx
  rw [zero_add] at h2
  have hf0 : 0 ≤ x / lengthOf lens := div_nonneg h1 hL.le
  have hf1 : x / lengthOf lens ≤ 1 := (div_le_one hL).mpr h2
  have hd : 0 ≤ b - a := sub_nonneg.mpr hab
  unfold mapAt
  constructor
  · have := mul_nonneg hf0 hd; linarith
  · have := mul_le_mul_of_nonneg_right hf1 hd; linarith

/-- C137: with an upstream end stretch the last junction is shown beyond the downstream superjunction. -/
theorem C137_beyond (a b du : K) (hab : a < b) (hdu : 0 < du) (lens : List K) (hL : 0 < lengthOf lens) :
    ∃ x ∈ positions du lens, b < mapAt a b x (lengthOf lens) := by
  refine ⟨du + lengthOf lens, List.mem_of_getLast? (positions_ends lens du).2, ?_⟩
  have : 0 < du / lengthOf lens * (b - a) := mul_pos (div_pos hdu hL) (sub_pos.mpr hab)
  unfold mapAt
  rw [add_div, div_self hL.ne']
  linarith

/-- C137: the vertical axis of the three-dimensional plot contains every water surface. -/
theorem C137_surfaces (N M : ℕ) (sI sj : ℕ → K) :
    (∀ i ≤ N, (zLims N M sI sj).1 ≤ sI i ∧ sI i ≤ (zLims N M sI sj).2) ∧
      ∀ j ≤ M, (zLims N M sI sj).1 ≤ sj j ∧ sj j ≤ (zLims N M sI sj).2 :=
  ⟨fun i hi => ⟨(min_le_left _ _).trans (minOf_le sI N i hi), (le_maxOf sI N i hi).trans (le_max_left _ _)⟩,
    fun j hj => ⟨(min_le_right _ _).trans (minOf_le sj M j hj), (le_maxOf sj M j hj).trans (le_max_right _ _)⟩⟩

/-- C137: but not the beds: if there is water everywhere, the lowest bed (of a junction `i`, below all beds) lies below the
axis, and so do the base lines and stems drawn from it. -/
theorem C137_bed_below (N M : ℕ) (zI hI zj Hj : ℕ → K) (hI0 : ∀ i ≤ N, 0 < hI i) (hj0 : ∀ j ≤ M, zj j < Hj j)
    (i : ℕ) (hl : ∀ i' ≤ N, zI i ≤ zI i') (hl' : ∀ j ≤ M, zI i ≤ zj j) :
    zI i < (zLims N M (fun i => zI i + hI i) Hj).1 := by
  obtain ⟨m, hm, em⟩ := minOf_mem (fun i => zI i + hI i) N
  obtain ⟨j, hj, ej⟩ := minOf_mem Hj M
  unfold zLims
  rw [em, ej]
  refine lt_min ?_ ?_
  · have := hl m hm; have := hI0 m hm; linarith
  · exact (hl' j hj).trans_lt (hj0 j hj)

/-- C137: every bed lies on the axis exactly if none is below the lowest surface (no depth being negative). -/
theorem C137_beds_iff (N M : ℕ) (zI hI Hj : ℕ → K) (hI0 : ∀ i ≤ N, 0 ≤ hI i) (i : ℕ) (hi : i ≤ N) :
    ((zLims N M (fun i => zI i + hI i) Hj).1 ≤ zI i ∧ zI i ≤ (zLims N M (fun i => zI i + hI i) Hj).2) ↔
      (∃ i' ≤ N, zI i' + hI i' ≤ zI i) ∨ ∃ j ≤ M, Hj j ≤ zI i := by
  have hs := C137_surfaces N M (fun i => zI i + hI i) Hj
  constructor
  · rintro ⟨h, -⟩
    unfold zLims at h
    rcases min_le_iff.mp h with h | h
    · obtain ⟨m, hm, em⟩ := minOf_mem (fun i => zI i + hI i) N
      exact Or.inl ⟨m, hm, by rw [em] at h; exact h⟩
    · obtain ⟨j, hj, ej⟩ := minOf_mem Hj M
      exact Or.inr ⟨j, hj, by rw [ej] at h; exact h⟩
  · intro h
    refine ⟨?_, ?_⟩
    · rcases h with ⟨i', h1, h2⟩ | ⟨j, h1, h2⟩
      · exact (hs.1 i' h1).1.trans h2
      · exact (hs.2 j h1).1.trans h2
    · have := (hs.1 i hi).2; have := hI0 i hi; linarith

end Ordered

/-! ### Cases -/

/-- Three superjunctions in a row, two superlinks downhill, each with two junctions and no end stretch. -/
def rowOf3 : Prof ℚ where
  M := 3
  NK := 2
  sj0 := fun k => k
  sj1 := fun k => k + 1
  first := fun k => ⟨0, 2 - k, 1⟩
  rest := fun k => [⟨10, 1 - k, 1⟩]
  dx := fun _ => 10
  H := fun j => 3 - j
  z := fun j => 2 - j

/-- Downhill: both superlinks are shown and the hypotheses of `C136_fits_partial` hold. -/
example : lookup rowOf3 (0, 1) = some 0 ∧ lookup rowOf3 (1, 2) = some 1 ∧ lookup rowOf3 (2, 1) = none ∧
    (∀ ab ∈ [0, 1, 2].zip [0, 1, 2].tail, ∃ k < rowOf3.NK, rowOf3.sj0 k = ab.1 ∧ rowOf3.sj1 k = ab.2) ∧
    ∀ k < rowOf3.NK, ∀ q ∈ rowOf3.pts k, 0 ≤ q.h ∧ 0 ≤ q.x ∧ q.x ≤ rowOf3.dx k := by
  refine ⟨by decide, by decide, by decide, by decide, ?_⟩
  intro k _ q hq
  simp only [Prof.pts, rowOf3, List.mem_cons, List.not_mem_nil, or_false] at hq
  rcases hq with rfl | rfl <;> norm_num [rowOf3]

/-- Uphill: `C136_upstream` and `C136_upside_down` apply. -/
example : (∀ ab ∈ [2, 1, 0].zip [2, 1, 0].tail, ∀ k < rowOf3.NK, ¬(rowOf3.sj0 k = ab.1 ∧ rowOf3.sj1 k = ab.2)) ∧
    (plotProfile rowOf3 [2, 1, 0] 1).isSome := by
  refine ⟨by decide, ?_⟩
  rcases h : plotProfile rowOf3 [2, 1, 0] 1 with _ | o
  · rw [C136_needs_two] at h; simp at h
  · rfl

/-- Two links of lengths 3 and 7 after an end stretch of 2: positions 2, 5, 12 of a superlink of length 10. -/
example : positions (2 : ℚ) [3, 7] = [2, 5, 12] ∧ lengthOf [(3 : ℚ), 7] = 10 ∧
    mapAt (0 : ℚ) 100 12 10 = 120 := by
  refine ⟨?_, ?_, ?_⟩ <;> norm_num [positions, lengthOf, mapAt, List.scanl]

end Pipedream.Visual
