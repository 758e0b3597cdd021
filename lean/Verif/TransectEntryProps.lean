import Verif.TransectEntryModel
import Verif.ConfigProps
import Verif.TransectProps

/-!
# C206: transects are read as documented

The documentation of the constructor describes a transect by lists of coordinates and numbers of sampling points.  Here:
which dictionaries are accepted, what the numbers of points do, and what becomes of the user's dictionary.
-/

namespace Pipedream.Config

open Pipedream.Geometry Pipedream.Sweep

/-! ### Specification -/

/-- An entry as described in docs/model-inputs.md 236–242 (and nsuperlink.py 141–146): lists of equally many
coordinates, numbers of points. -/
structure Documented (e : Entry) : Prop where
  lists : ∃ xs ys : List ℝ, e.x = some (.list xs) ∧ e.y = some (.list ys) ∧ xs.length = ys.length ∧ 2 ≤ xs.length
  points : (∀ n, e.horiz_points = some n → 2 ≤ n) ∧ ∀ n, e.vert_points = some n → 2 ≤ n
  others : e.sample_points = none ∧ e.others = []

/-- An entry as described in superlink.py 138–142. -/
structure DocumentedBase (e : Entry) : Prop where
  lists : ∃ xs ys : List ℝ, e.x = some (.list xs) ∧ e.y = some (.list ys) ∧ xs.length = ys.length ∧ 2 ≤ xs.length
  points : ∃ n, e.sample_points = some n ∧ 2 ≤ n
  others : e.horiz_points = none ∧ e.vert_points = none ∧ e.others = []

/-- What an entry must be like to be sampled at `m` levels: arrays of floats, at least as many elevations as
stations. -/
structure Readable (e : Entry) (m : ℕ) (xs ys : List ℝ) : Prop where
  x : e.x = some (.floats xs)
  y : e.y = some (.floats ys)
  some_y : ys ≠ []
  enough : xs.length ≤ 1 ∨ xs.length ≤ ys.length
  count : e.sample_points.getD 100 = m
  m_pos : 0 < m

/-! ### Properties -/

/-- **C206 (what is accepted).** An entry whose number of sample points is not zero is sampled exactly if its
coordinates are float arrays, with at least one elevation and no fewer elevations than stations, and the number of sample
points is positive; the tables are then those of the surveyed section at that many levels. -/
theorem C206_accepts_iff (name : String) (e : Entry) (t : Transect) (h0 : e.sample_points ≠ some 0) :
    (readEntry name e).2 = .ok t ↔ ∃ m xs ys, Readable e m xs ys ∧ t = sample name m xs ys := by
  have hm0 : e.sample_points.getD 100 ≠ 0 := by
    cases h : e.sample_points with
    | none => simp
    | some n => simpa [h] using h0
  constructor
  · intro h
    unfold readEntry at h
    cases hx : e.x with
    | none => simp [hx] at h
    | some x =>
      cases hy : e.y with
      | none => simp [hx, hy] at h
      | some y =>
        simp only [hx, hy] at h
        cases y with
        | list v => simp at h
        | ints v =>
          simp only at h
          split_ifs at h
        | floats v =>
          simp only at h
          split_ifs at h with h1 h2
          cases x with
          | list u => simp at h
          | ints u => simp at h
          | floats u =>
            simp only at h
            split_ifs at h with h4
            cases h
            refine ⟨_, u, v, ⟨hx, hy, h1, ?_, ?_, ?_⟩, rfl⟩
            · by_contra hc
              push Not at hc
              exact h4 ⟨by omega, hc.2⟩
            · exact (Int.toNat_of_nonneg (not_lt.mp h2)).symm
            · omega
  · rintro ⟨m, xs, ys, r, rfl⟩
    unfold readEntry
    have mp := r.m_pos
    simp only [r.x, r.y, r.count]
    rw [if_neg r.some_y, if_neg (by omega), if_neg (by omega), if_neg ?_]
    · simp
    · rintro ⟨h1, h2⟩
      rcases r.enough with h | h <;> omega

/-- **C206 fails: the documented form is refused.** Coordinates given as lists, as documented, raise `AttributeError`,
whatever the numbers of points. -/
theorem C206_documented_refused (name : String) {e : Entry} (d : Documented e) :
    (readEntry name e).2 = .error .attribute := by
  obtain ⟨xs, ys, hx, hy, -⟩ := d.lists
  simp [readEntry, hx, hy]

/-- Whole-numbered coordinates entered as an array without a decimal point raise `TypeError`. -/
theorem C206_whole_numbers_refused (name : String) {e : Entry} {xs ys : List ℝ} (hx : e.x = some (.ints xs))
    (hy : e.y = some (.ints ys)) (some_y : ys ≠ []) (hm : 0 < e.sample_points.getD 100) :
    (readEntry name e).2 = .error .type := by
  simp only [readEntry, hx, hy]
  rw [if_neg some_y, if_neg (by omega), if_neg (by omega)]

/-- **C206 fails: the documented numbers of points are ignored.** -/
theorem C206_points_ignored (name : String) (e : Entry) (a b : Option ℤ) :
    (readEntry name { e with horiz_points := a, vert_points := b }).2 = (readEntry name e).2 := by
  unfold readEntry
  cases e.x with
  | none => rfl
  | some x => cases e.y <;> rfl

/-- The number of levels is `sample_points`, or 100; a documented `vert_points` is the number of levels only if it
happens to be that number. -/
theorem C206_levels (name : String) {e : Entry} {t : Transect} (h : (readEntry name e).2 = .ok t)
    (h0 : e.sample_points ≠ some 0) : (t.zs.length : ℤ) = e.sample_points.getD 100 := by
  obtain ⟨m, xs, ys, r, rfl⟩ := (C206_accepts_iff name e t h0).mp h
  simp [sample, r.count]

theorem C206_vert_points_iff (name : String) {e : Entry} {t : Transect} (h : (readEntry name e).2 = .ok t)
    (h0 : e.sample_points = none) (n : ℤ) (_hn : e.vert_points = some n) : (t.zs.length : ℤ) = n ↔ n = 100 := by
  rw [C206_levels name h (by simp [h0]), h0]
  exact eq_comm

/-- **C206 fails: the user's dictionary is written to.** Reading an entry changes it exactly if it has coordinates and no
number of sample points — also if reading it fails — and the change is the additional key. -/
theorem C206_written_iff (name : String) (e : Entry) :
    ((readEntry name e).1 = e ∨ (readEntry name e).1 = { e with sample_points := some 100 }) ∧
    ((readEntry name e).1 ≠ e ↔ e.x ≠ none ∧ e.y ≠ none ∧ e.sample_points = none) := by
  unfold readEntry
  obtain ⟨x, y, s, hp, vp, os⟩ := e
  cases x with
  | none => simp
  | some x =>
    cases y with
    | none => simp
    | some y => cases s <;> simp [Entry.filled]

/-- Reading it again gives the same. -/
theorem C206_again (name : String) (e : Entry) : readEntry name (readEntry name e).1 = readEntry name e := by
  obtain ⟨x, y, s, hp, vp, os⟩ := e
  cases x with
  | none => rfl
  | some x =>
    cases y with
    | none => rfl
    | some y => cases s <;> rfl

/-- What `geometry.Irregular` accepts. -/
theorem C206_base_iff (e : Entry) (r : List ℝ × List ℝ × ℤ × ℤ) :
    readEntryBase e = .ok r ↔ ∃ x y, e.x = some x ∧ e.y = some y ∧ e.sample_points = none ∧ e.others = [] ∧
      r = (x.values, y.values, e.horiz_points.getD 100, e.vert_points.getD 100) := by
  obtain ⟨x, y, s, hp, vp, os⟩ := e
  unfold readEntryBase
  cases x with
  | none => simp
  | some x =>
    cases y with
    | none => simp
    | some y =>
      cases s with
      | some s => simp
      | none =>
        cases os with
        | cons a l => simp
        | nil => simp [eq_comm]

/-- **C206 (the pure-Python class).** It takes the form documented for the compiled class, with its numbers of points, … -/
theorem C206_base_documented {e : Entry} (d : Documented e) : ∃ r, readEntryBase e = .ok r ∧
    r.2.2 = (e.horiz_points.getD 100, e.vert_points.getD 100) := by
  obtain ⟨xs, ys, hx, hy, -⟩ := d.lists
  exact ⟨_, (C206_base_iff e _).mpr ⟨_, _, hx, hy, d.others.1, d.others.2, rfl⟩, rfl⟩

/-- … and **C206 fails: it refuses the form documented for itself** … -/
theorem C206_base_refuses_own {e : Entry} (d : DocumentedBase e) : readEntryBase e = .error .type := by
  obtain ⟨n, hn, -⟩ := d.points
  unfold readEntryBase
  rw [hn]
  cases e.x <;> cases e.y <;> cases e.others <;> rfl

/-- … **and every dictionary that the compiled class has read coordinates from.** -/
theorem C206_base_refuses_read (name : String) {e : Entry} (hx : e.x ≠ none) (hy : e.y ≠ none) :
    readEntryBase (readEntry name e).1 = .error .type := by
  obtain ⟨x, y, s, hp, vp, os⟩ := e
  cases x with
  | none => simp at hx
  | some x =>
    cases y with
    | none => simp at hy
    | some y => rfl

/-- **C206 (the whole dictionary).** The tables of all entries are obtained exactly if every entry can be read, used by a
link or not; they are in the order of the dictionary. -/
theorem C206_all_iff (d : List (String × Entry)) (ts : List Transect) :
    (readAll d).2 = .ok ts ↔ List.Forall₂ (fun p t => (readEntry p.1 p.2).2 = .ok t) d ts := by
  induction d generalizing ts with
  | nil => cases ts <;> simp [readAll]
  | cons p d ih =>
    obtain ⟨name, e⟩ := p
    unfold readAll
    cases h : readEntry name e with
    | mk e' r =>
      cases r with
      | error f =>
        simp only [reduceCtorEq, false_iff]
        intro hf
        cases hf with
        | cons h1 _ => simp [h] at h1
      | ok t =>
        cases hd : readAll d with
        | mk d' rs =>
          rw [hd] at ih
          cases rs with
          | error f =>
            simp only [reduceCtorEq, false_iff]
            intro hf
            cases hf with
            | cons h1 h2 => simpa using (ih _).mpr h2
          | ok us =>
            simp only [Except.ok.injEq] at ih ⊢
            constructor
            · rintro rfl
              exact .cons (by simp [h]) ((ih us).mp rfl)
            · intro hf
              cases hf with
              | cons h1 h2 =>
                simp only [h, Except.ok.injEq] at h1
                rw [h1, (ih _).mpr h2]

/-- The tables so obtained are a dictionary of transects as the rest of the configuration (C114) needs it. -/
theorem C206_tables {d : List (String × Entry)} (nd : (d.map Prod.fst).Nodup) {ts : List Transect}
    (h : (readAll d).2 = .ok ts) : GoodTransects ts ∧ ts.map Transect.name = d.map Prod.fst := by
  have f := (C206_all_iff d ts).mp h
  have key : ∀ (p : String × Entry) t, (readEntry p.1 p.2).2 = .ok t → ∃ m xs ys, t = sample p.1 m xs ys := by
    intro p t ht
    unfold readEntry at ht
    cases hx : p.2.x with
    | none => simp [hx] at ht
    | some x =>
      cases hy : p.2.y with
      | none => simp [hx, hy] at ht
      | some y =>
        simp only [hx, hy] at ht
        cases y with
        | list v => simp at ht
        | ints v =>
          simp only at ht
          split_ifs at ht
          cases ht; exact ⟨_, _, _, rfl⟩
        | floats v =>
          simp only at ht
          split_ifs at ht with h1 h2
          · cases ht; exact ⟨_, _, _, rfl⟩
          · cases x with
            | list u => simp at ht
            | ints u => simp at ht
            | floats u =>
              simp only at ht
              split_ifs at ht
              cases ht; exact ⟨_, _, _, rfl⟩
  have names : ts.map Transect.name = d.map Prod.fst := by
    clear h nd
    induction f with
    | nil => rfl
    | cons h1 _ ih =>
      obtain ⟨m, xs, ys, rfl⟩ := key _ _ h1
      simp [ih, sample]
  have all : ∀ t ∈ ts, ∃ name m xs ys, t = sample name m xs ys := by
    intro t ht
    obtain ⟨i, hi, rfl⟩ := List.getElem_of_mem ht
    obtain ⟨m, xs, ys, e⟩ := key _ _ (f.get (by rw [f.length_eq]; exact hi) hi)
    exact ⟨_, m, xs, ys, e⟩
  refine ⟨⟨by rw [names]; exact nd, ?_, ?_, ?_, ?_⟩, names⟩ <;>
  · intro t ht
    obtain ⟨name, m, xs, ys, rfl⟩ := all t ht
    simp [sample]

/-- One entry that cannot be read, used or not, keeps the model from being built. -/
theorem C206_unused_matters (d : List (String × Entry)) {name : String} {e : Entry} (hm : (name, e) ∈ d)
    (bad : ∀ t, (readEntry name e).2 ≠ .ok t) (ts : List Transect) : (readAll d).2 ≠ .ok ts := by
  intro h
  have f := (C206_all_iff d ts).mp h
  obtain ⟨i, hi, e1⟩ := List.getElem_of_mem hm
  have := f.get hi (by rw [← f.length_eq]; exact hi)
  simp only [List.get_eq_getElem, e1] at this
  exact bad _ this

/-! ### What is sampled -/

/-- A sloping piece of bed is wetted over the same fraction of its length as of its width. -/
theorem segPe_eq (w x0 x1 y0 y1 : ℝ) : segPe w x0 x1 y0 y1 =
    segWidth (Real.sqrt ((x1 - x0) ^ 2 + (y1 - y0) ^ 2)) (min y0 y1) (max y0 y1) w := by
  have key : ∀ a b c : ℝ, 0 ≤ c → Real.sqrt ((a * c) ^ 2 + (b * c) ^ 2) = Real.sqrt (a ^ 2 + b ^ 2) * c := by
    intro a b c hc
    rw [show (a * c) ^ 2 + (b * c) ^ 2 = (a ^ 2 + b ^ 2) * c ^ 2 by ring, Real.sqrt_mul (by positivity),
      Real.sqrt_sq hc]
  simp only [segPe, segWidth]
  by_cases h0 : y0 ≤ w <;> by_cases h1 : y1 ≤ w
  · rw [if_neg (by rintro ⟨h, -⟩; linarith), if_pos ⟨h0, h1⟩, if_neg (not_lt.mpr (min_le_of_left_le h0)),
      if_pos (max_le h0 h1)]
  · have hl : y0 ≤ y1 := by linarith
    have hne : y1 - y0 ≠ 0 := by intro h; apply h1; linarith
    have hc : 0 ≤ (w - y0) / (y1 - y0) := div_nonneg (by linarith) (by linarith)
    have e1 : (x1 - x0) / (y1 - y0) * (w - y0) = (x1 - x0) * ((w - y0) / (y1 - y0)) := by ring
    have e2 : (w - y0) ^ 2 = ((y1 - y0) * ((w - y0) / (y1 - y0))) ^ 2 := by field_simp
    rw [if_neg (by rintro ⟨h, -⟩; linarith), if_neg (by rintro ⟨-, h⟩; exact h1 h), if_neg (by rintro ⟨h, -⟩; linarith),
      min_eq_left hl, max_eq_right hl, if_neg (not_lt.mpr h0), if_neg h1, e1, e2, key _ _ _ hc, mul_div_assoc]
  · have hl : y1 ≤ y0 := by linarith
    have hne : y0 - y1 ≠ 0 := by intro h; apply h0; linarith
    have hc : 0 ≤ (w - y1) / (y0 - y1) := div_nonneg (by linarith) (by linarith)
    have e1 : (x1 - x0) / (y1 - y0) * (y1 - w) = (x1 - x0) * ((w - y1) / (y0 - y1)) := by
      rw [show y1 - y0 = -(y0 - y1) by ring]; field_simp; ring
    have e2 : (w - y1) ^ 2 = ((y1 - y0) * ((w - y1) / (y0 - y1))) ^ 2 := by
      rw [show y1 - y0 = -(y0 - y1) by ring]; field_simp
    rw [if_neg (by rintro ⟨-, h⟩; linarith), if_neg (by rintro ⟨h, -⟩; exact h0 h), if_pos ⟨not_le.mp h0, h1⟩,
      min_eq_right hl, max_eq_left hl, if_neg (not_lt.mpr h1), if_neg h0, e1, e2, key _ _ _ hc, mul_div_assoc]
  · rw [if_pos ⟨not_le.mp h0, not_le.mp h1⟩, if_pos (lt_min (not_le.mp h0) (not_le.mp h1))]

theorem top_spec {l : List ℝ} (h : l ≠ []) : top l ∈ l ∧ ∀ a ∈ l, a ≤ top l := by
  cases l with
  | nil => exact absurd rfl h
  | cons a l =>
    show l.foldl max a ∈ a :: l ∧ ∀ b ∈ a :: l, b ≤ l.foldl max a
    clear h
    induction l generalizing a with
    | nil => simp
    | cons c l ih =>
      obtain ⟨h1, h2⟩ := ih (max a c)
      simp only [List.foldl_cons]
      refine ⟨?_, fun b hb => ?_⟩
      · rcases List.mem_cons.mp h1 with h | h
        · rcases max_choice a c with g | g <;> rw [h, g] <;> simp
        · simp [h]
      · have hm := h2 (max a c) (by simp)
        rcases List.mem_cons.mp hb with rfl | hb
        · exact (le_max_left _ _).trans hm
        · rcases List.mem_cons.mp hb with rfl | hb
          · exact (le_max_right _ _).trans hm
          · exact h2 b (by simp [hb])

/-- **C206 (what the tables hold).** Levels equally spaced from zero to the highest elevation surveyed; at each level
the area, the width and the wetted perimeter of the surveyed section filled up to it, segment by segment, and their
quotient as hydraulic radius (zero for a dry section). -/
theorem C206_values (name : String) {e : Entry} {m : ℕ} {xs ys : List ℝ} (r : Readable e m xs ys)
    (hx : ∀ i, i + 1 < xs.length → xs.getD i 0 ≤ xs.getD (i + 1) 0) :
    ∃ t hi, (readEntry name e).2 = .ok t ∧ t.name = name ∧ hi ∈ ys ∧ (∀ y ∈ ys, y ≤ hi) ∧
      t.zs.length = m ∧ t.As.length = m ∧ t.Bs.length = m ∧ t.Pes.length = m ∧ t.Rs.length = m ∧
      ∀ k, k < m → ∃ w a b p ρ, t.zs[k]? = some w ∧ t.As[k]? = some a ∧ t.Bs[k]? = some b ∧ t.Pes[k]? = some p ∧
        t.Rs[k]? = some ρ ∧ w = hi * k / (m - 1 : ℕ) ∧
        a = (∑ i ∈ Finset.range (xs.length - 1), segArea (xs.getD (i + 1) 0 - xs.getD i 0)
          (min (ys.getD i 0) (ys.getD (i + 1) 0)) (max (ys.getD i 0) (ys.getD (i + 1) 0)) w) ∧
        b = (∑ i ∈ Finset.range (xs.length - 1), segWidth (xs.getD (i + 1) 0 - xs.getD i 0)
          (min (ys.getD i 0) (ys.getD (i + 1) 0)) (max (ys.getD i 0) (ys.getD (i + 1) 0)) w) ∧
        p = (∑ i ∈ Finset.range (xs.length - 1), segWidth
          (Real.sqrt ((xs.getD (i + 1) 0 - xs.getD i 0) ^ 2 + (ys.getD (i + 1) 0 - ys.getD i 0) ^ 2))
          (min (ys.getD i 0) (ys.getD (i + 1) 0)) (max (ys.getD i 0) (ys.getD (i + 1) 0)) w) ∧
        (p ≠ 0 → ρ = a / p) ∧ (p = 0 → ρ = 0) := by
  have h0 : e.sample_points ≠ some 0 := fun h => by
    have := r.count; have := r.m_pos; simp [h] at *; omega
  refine ⟨_, top ys, (C206_accepts_iff name e _ h0).mpr ⟨m, xs, ys, r, rfl⟩, rfl, (top_spec r.some_y).1,
    (top_spec r.some_y).2, by simp [sample], by simp [sample], by simp [sample], by simp [sample], by simp [sample],
    fun k hk => ?_⟩
  refine ⟨_, _, _, _, _, by simp [sample, hk]; rfl, by simp [sample, hk]; rfl, by simp [sample, hk]; rfl,
    by simp [sample, hk]; rfl, by simp [sample, hk]; rfl, rfl, ?_, ?_, ?_, ?_, ?_⟩
  · rw [transectSum_eq]
    exact Finset.sum_congr rfl fun i hi => segA_eq _ _ _ _ _ (hx i (by have := Finset.mem_range.mp hi; omega))
  · rw [transectSum_eq]
    exact Finset.sum_congr rfl fun i _ => segB_eq _ _ _ _ _
  · rw [transectSum_eq]
    exact Finset.sum_congr rfl fun i _ => segPe_eq _ _ _ _ _
  · intro hp; simp only [safeDivide, if_neg hp]
  · intro hp; simp only [safeDivide, if_pos hp]

/-- **C206 (the dictionary afterwards).** Entries are visited in order up to the first that cannot be read; all of these,
the failing one included, are left as reading leaves them, the later ones untouched. -/
theorem C206_dictionary (d : List (String × Entry)) :
    ∃ l r, d = l ++ r ∧ (readAll d).1 = (l.map fun q => (q.1, (readEntry q.1 q.2).1)) ++ r ∧
      ((∃ ts, (readAll d).2 = .ok ts) → r = []) ∧
      ∀ f, (readAll d).2 = .error f → ∃ l' q, l = l' ++ [q] ∧ (readEntry q.1 q.2).2 = .error f ∧
        ∀ q' ∈ l', ∃ t, (readEntry q'.1 q'.2).2 = .ok t := by
  induction d with
  | nil => exact ⟨[], [], rfl, rfl, fun _ => rfl, fun f h => by simp [readAll] at h⟩
  | cons q d ih =>
    obtain ⟨name, e⟩ := q
    cases h : readEntry name e with
    | mk e' x =>
      cases x with
      | error f =>
        refine ⟨[(name, e)], d, rfl, ?_, ?_, ?_⟩
        · simp [readAll, h]
        · simp [readAll, h]
        · intro f' hf
          simp only [readAll, h, Except.error.injEq] at hf
          exact ⟨[], (name, e), rfl, by rw [h, hf], by simp⟩
      | ok t =>
        obtain ⟨l, r, e1, e2, e3, e4⟩ := ih
        cases h2 : readAll d with
        | mk d' y =>
          rw [h2] at e2 e3 e4
          refine ⟨(name, e) :: l, r, by rw [e1]; rfl, ?_, ?_, ?_⟩
          · cases y <;> simp only [readAll, h, h2, List.map_cons, List.cons_append, List.cons.injEq, true_and] <;> exact e2
          · rintro ⟨ts, hts⟩
            cases y with
            | error f => simp [readAll, h, h2] at hts
            | ok us => exact e3 ⟨us, rfl⟩
          · intro f hf
            cases y with
            | ok us => simp [readAll, h, h2] at hf
            | error g =>
              simp only [readAll, h, h2, Except.error.injEq] at hf
              obtain ⟨l', q, a, b, c⟩ := e4 f (by rw [hf])
              refine ⟨(name, e) :: l', q, by rw [a]; rfl, b, fun q' hq' => ?_⟩
              rcases List.mem_cons.mp hq' with rfl | hq'
              · exact ⟨t, by rw [h]⟩
              · exact c q' hq'

/-! ### Examples -/

/-- A triangular ditch entered as documented: refused, and the dictionary is changed nevertheless. -/
noncomputable def ditchLists : Entry := ⟨some (.list [0, 1, 2]), some (.list [1, 0, 1]), none, some 50, some 20, []⟩

example : Documented ditchLists :=
  ⟨⟨_, _, rfl, rfl, rfl, by simp⟩, ⟨fun n h => by cases h; norm_num, fun n h => by cases h; norm_num⟩, rfl, rfl⟩

example : (readEntry "ditch" ditchLists).1.sample_points = some 100 := rfl

/-- The same with arrays is sampled at 100 levels although 20 were asked for. -/
noncomputable def ditchArrays : Entry :=
  { ditchLists with x := some (.floats [0, 1, 2]), y := some (.floats [1, 0, 1]) }

theorem ditch_readable : Readable ditchArrays 100 [0, 1, 2] [1, 0, 1] :=
  ⟨rfl, rfl, by simp, .inr (by simp), rfl, by norm_num⟩

example : ∃ t, (readEntry "ditch" ditchArrays).2 = .ok t ∧ t.zs.length = 100 ∧ t.As[99]? = some 1 := by
  refine ⟨_, (C206_accepts_iff "ditch" _ _ (by simp [ditchArrays, ditchLists])).mpr ⟨_, _, _, ditch_readable, rfl⟩, ?_, ?_⟩
  · simp [sample]
  · simp [sample, levels, top, transectSum, forRange, segA]
    norm_num

end Pipedream.Config
