import Verif.InfiltrationArrayLemmas
import Verif.InfiltrationReturnsProps

/-!
# C207: soil elements do not influence each other

A `GreenAmpt` object holds many soil elements.  Its step selects the elements of each case by masks, copies their values
into shorter arrays and writes them back, in one case through two levels of positions.  Here: every element goes through
exactly the step it would make in an object of its own.
-/

namespace Pipedream.Infiltration

open Pipedream.Link Pipedream.Root

variable {N : ℕ} {ps : ℕ → Soil} {dt : ℝ} {i : ℕ → ℝ} {s s' : GAs}

theorem Acts.guard {mask : ℕ → Bool} {f : ℕ → GA → Except GErr GA} {r : Except GErr GAs} (h : Acts N mask f s r) :
    Acts N mask f s (if anyTrue N mask then r else pure s) := by
  split_ifs with ha
  · exact h
  · have no : ∀ j, j < N → ¬ mask j = true := fun j hj hm => ha (anyTrue_iff.mpr ⟨j, hj, hm⟩)
    refine ⟨fun s' e => ?_, fun _ => ⟨_, rfl⟩⟩
    cases e
    exact ⟨rfl, fun j => ⟨fun hj hm => absurd hm (no j hj), fun _ => rfl⟩⟩

theorem guard_cell {mask : ℕ → Bool} {u : GAs} {g : ℕ → GA → GA}
    (h : ∀ j, (j ∈ flat N mask → u.cell j = g j (s.cell j)) ∧ (j ∉ flat N mask → u.cell j = s.cell j)) {j : ℕ} (hj : j < N) :
    (if anyTrue N mask then u else s).cell j = if mask j then g j (s.cell j) else s.cell j := by
  split_ifs with ha hm hm
  · exact (h j).1 (mem_flat.mpr ⟨hj, hm⟩)
  · exact (h j).2 fun h => hm (mem_flat.mp h).2
  · exact absurd (anyTrue_iff.mpr ⟨j, hj, hm⟩) ha
  · rfl

theorem guard_t {mask : ℕ → Bool} {u : GAs} (h : u.t = s.t) : (if anyTrue N mask then u else s).t = s.t := by
  split_ifs
  · exact h
  · rfl

theorem ite_bind' {c : Prop} [Decidable c] {α β : Type} {a b : Except GErr α} {k : α → Except GErr β} :
    (if c then a >>= k else b >>= k) = (if c then a else b) >>= k := by
  split_ifs <;> rfl

/-- The step, with the two parts that may raise in front. -/
theorem stepA_eq (N : ℕ) (ps : ℕ → Soil) (dt : ℝ) (i : ℕ → ℝ) (s : GAs) :
    let ia : ℕ → ℝ := fun j => i j + s.d j / dt
    let m1 : ℕ → Bool := fun j => !s.sat j && decide (ia j = 0)
    let m2 : ℕ → Bool := fun j => !s.sat j && decide (ia j ≤ (ps j).Ks)
    let m3 : ℕ → Bool := fun j => !s.sat j && decide (ia j > (ps j).Ks)
    let s0 : GAs := { s with T := fun j => if j < N then s.T j - dt else s.T j }
    stepA N ps dt i s = (if anyTrue N s.sat then satA N ps dt ia s.sat s0 else pure s0) >>= fun s1 =>
      (let s2 : GAs := if anyTrue N m1 then case1A N ps dt m1 s1 else s1
       let s3 : GAs := if anyTrue N m2 then case2A N ps dt ia m2 s2 else s2
       (if anyTrue N m3 then case3A N ps dt ia m3 s3 else pure s3) >>= fun s => pure
        { s with
          Q := fun j => if j < N then max (i j - s.f j) 0 * (ps j).A_s else s.Q j
          d := fun j => if j < N then max (s.d j + (i j - s.f j)) 0 else s.d j
          t := s.t + dt }) := by
  intro ia m1 m2 m3 s0
  unfold stepA
  refine Eq.trans ite_bind' ?_
  refine congrArg _ (funext fun s1 => ?_)
  exact ite_bind'

/-- **C207 (one step).** If the step of the object returns, every element has made its own step. -/
theorem C207_step (h : stepA N ps dt i s = .ok s') :
    s'.t = s.t + dt ∧ ∀ j, j < N → step (ps j) dt (i j) (s.cell j) = .ok (s'.cell j) := by
  let ia : ℕ → ℝ := fun j => i j + s.d j / dt
  let m1 : ℕ → Bool := fun j => !s.sat j && decide (ia j = 0)
  let m2 : ℕ → Bool := fun j => !s.sat j && decide (ia j ≤ (ps j).Ks)
  let m3 : ℕ → Bool := fun j => !s.sat j && decide (ia j > (ps j).Ks)
  let s0 : GAs := { s with T := fun j => if j < N then s.T j - dt else s.T j }
  have c0 : ∀ j, j < N → s0.cell j = { s.cell j with T := s.T j - dt } := fun j hj => by
    simp only [s0, GAs.cell, if_pos hj]
  have aS := (satA_acts N ps dt ia s.sat s0).guard
  cases hA : (if anyTrue N s.sat then satA N ps dt ia s.sat s0 else pure s0) with
  | error e =>
    exfalso
    have : stepA N ps dt i s = .error e := by
      refine (stepA_eq N ps dt i s).trans ?_
      rw [hA]; rfl
    rw [this] at h; cases h
  | ok s1 =>
    obtain ⟨t1, k1⟩ := aS.ok s1 hA
    let s2 : GAs := if anyTrue N m1 then case1A N ps dt m1 s1 else s1
    let s3 : GAs := if anyTrue N m2 then case2A N ps dt ia m2 s2 else s2
    have t2 : s2.t = s1.t := guard_t rfl
    have t3 : s3.t = s2.t := guard_t rfl
    have k2 : ∀ j, j < N → s2.cell j = if m1 j then case1 (ps j) dt (s1.cell j) else s1.cell j := fun j hj =>
      guard_cell (g := fun j => case1 (ps j) dt) (case1A_cell N ps dt m1 s1) hj
    have k3 : ∀ j, j < N → s3.cell j = if m2 j then case2 (ps j) dt (ia j) (s2.cell j) else s2.cell j := fun j hj =>
      guard_cell (g := fun j => case2 (ps j) dt (ia j)) (case2A_cell N ps dt ia m2 s2) hj
    have a3 := (case3A_acts N ps dt ia m3 s3).guard
    have e1 : stepA N ps dt i s = (if anyTrue N m3 then case3A N ps dt ia m3 s3 else pure s3) >>= fun s => pure
        { s with
          Q := fun j => if j < N then max (i j - s.f j) 0 * (ps j).A_s else s.Q j
          d := fun j => if j < N then max (s.d j + (i j - s.f j)) 0 else s.d j
          t := s.t + dt } := by
      refine (stepA_eq N ps dt i s).trans ?_
      rw [hA]; rfl
    rw [e1] at h
    cases hB : (if anyTrue N m3 then case3A N ps dt ia m3 s3 else pure s3) with
    | error e => rw [hB] at h; cases h
    | ok s4 =>
      rw [hB] at h
      cases h
      obtain ⟨t4, k4⟩ := a3.ok s4 hB
      refine ⟨by change s4.t + dt = _; rw [t4, t3, t2, t1], fun j hj => ?_⟩
      have fin : infiltrate (ps j) dt (available dt (i j) (s.cell j)) { s.cell j with T := (s.cell j).T - dt } =
          .ok (s4.cell j) := by
        change infiltrate (ps j) dt (ia j) { s.cell j with T := s.T j - dt } = _
        rw [← c0 j hj]
        have hsat : (s0.cell j).sat = s.sat j := rfl
        unfold infiltrate
        rw [hsat]
        by_cases hs : s.sat j = true
        · rw [if_pos hs]
          have n1 : ¬ m1 j = true := by simp [m1, hs]
          have n2 : ¬ m2 j = true := by simp [m2, hs]
          have n3 : ¬ m3 j = true := by simp [m3, hs]
          rw [(k4 j).2 (fun h => n3 h.2), k3 j hj, if_neg n2, k2 j hj, if_neg n1]
          exact (k1 j).1 hj hs
        · rw [if_neg hs]
          have hsf : s.sat j = false := by simpa using hs
          have i1 : m1 j = true ↔ ia j = 0 := by simp [m1, hsf]
          have i2 : m2 j = true ↔ ia j ≤ (ps j).Ks := by simp [m2, hsf]
          have i3 : m3 j = true ↔ ia j > (ps j).Ks := by simp [m3, hsf]
          have q1 : s1.cell j = s0.cell j := (k1 j).2 (fun h => hs h.2)
          have q2 : s2.cell j = if ia j = 0 then case1 (ps j) dt (s0.cell j) else s0.cell j := by
            rw [k2 j hj, q1]; exact if_congr i1 rfl rfl
          have q3 : s3.cell j = if ia j ≤ (ps j).Ks then case2 (ps j) dt (ia j) (s2.cell j) else s2.cell j := by
            rw [k3 j hj]; exact if_congr i2 rfl rfl
          simp only
          rw [← q2, ← q3]
          by_cases h3 : ia j > (ps j).Ks
          · rw [if_pos h3]; exact (k4 j).1 hj (i3.mpr h3)
          · rw [if_neg h3, (k4 j).2 (fun h => h3 (i3.mp h.2))]
      unfold step
      simp only
      rw [fin]
      simp only [bind, Except.bind, pure, Except.pure, surface, GAs.cell, if_pos hj]

/-- The step of the object returns if the steps of all elements do. -/
theorem C207_returns (h : ∀ j, j < N → ∃ c, step (ps j) dt (i j) (s.cell j) = .ok c) : ∃ s', stepA N ps dt i s = .ok s' := by
  let ia : ℕ → ℝ := fun j => i j + s.d j / dt
  let m1 : ℕ → Bool := fun j => !s.sat j && decide (ia j = 0)
  let m2 : ℕ → Bool := fun j => !s.sat j && decide (ia j ≤ (ps j).Ks)
  let m3 : ℕ → Bool := fun j => !s.sat j && decide (ia j > (ps j).Ks)
  let s0 : GAs := { s with T := fun j => if j < N then s.T j - dt else s.T j }
  have c0 : ∀ j, j < N → s0.cell j = { s.cell j with T := s.T j - dt } := fun j hj => by
    simp only [s0, GAs.cell, if_pos hj]
  have inf : ∀ j, j < N → ∃ c, infiltrate (ps j) dt (ia j) (s0.cell j) = .ok c := fun j hj => by
    obtain ⟨c, hc⟩ := h j hj
    rw [c0 j hj]
    cases hI : infiltrate (ps j) dt (ia j) { s.cell j with T := s.T j - dt } with
    | ok v => exact ⟨v, rfl⟩
    | error e =>
      have hI' : infiltrate (ps j) dt (available dt (i j) (s.cell j)) { s.cell j with T := (s.cell j).T - dt } = .error e := hI
      simp only [step, hI'] at hc
      cases hc
  have aS := (satA_acts N ps dt ia s.sat s0).guard
  obtain ⟨s1, hA⟩ := aS.total fun j hj hs => by
    obtain ⟨c, hc⟩ := inf j hj
    have hsat : (s0.cell j).sat = s.sat j := rfl
    unfold infiltrate at hc
    rw [hsat, if_pos hs] at hc
    exact ⟨c, hc⟩
  obtain ⟨t1, k1⟩ := aS.ok s1 hA
  let s2 : GAs := if anyTrue N m1 then case1A N ps dt m1 s1 else s1
  let s3 : GAs := if anyTrue N m2 then case2A N ps dt ia m2 s2 else s2
  have k2 : ∀ j, j < N → s2.cell j = if m1 j then case1 (ps j) dt (s1.cell j) else s1.cell j := fun j hj =>
    guard_cell (g := fun j => case1 (ps j) dt) (case1A_cell N ps dt m1 s1) hj
  have k3 : ∀ j, j < N → s3.cell j = if m2 j then case2 (ps j) dt (ia j) (s2.cell j) else s2.cell j := fun j hj =>
    guard_cell (g := fun j => case2 (ps j) dt (ia j)) (case2A_cell N ps dt ia m2 s2) hj
  have a3 := (case3A_acts N ps dt ia m3 s3).guard
  obtain ⟨s4, hB⟩ := a3.total fun j hj hm => by
    have hsf : s.sat j = false := by
      cases hs : s.sat j with
      | false => rfl
      | true => simp [m3, hs] at hm
    have i1 : m1 j = true ↔ ia j = 0 := by simp [m1, hsf]
    have i2 : m2 j = true ↔ ia j ≤ (ps j).Ks := by simp [m2, hsf]
    have i3 : m3 j = true ↔ ia j > (ps j).Ks := by simp [m3, hsf]
    have q1 : s1.cell j = s0.cell j := (k1 j).2 (fun h => by rw [hsf] at h; simp at h)
    have q2 : s2.cell j = if ia j = 0 then case1 (ps j) dt (s0.cell j) else s0.cell j := by
      rw [k2 j hj, q1]; exact if_congr i1 rfl rfl
    have q3 : s3.cell j = if ia j ≤ (ps j).Ks then case2 (ps j) dt (ia j) (s2.cell j) else s2.cell j := by
      rw [k3 j hj]; exact if_congr i2 rfl rfl
    obtain ⟨c, hc⟩ := inf j hj
    have hsat : (s0.cell j).sat = s.sat j := rfl
    unfold infiltrate at hc
    rw [hsat, hsf] at hc
    simp only at hc
    rw [← q2, ← q3, if_pos (i3.mp hm), if_neg (by simp)] at hc
    exact ⟨c, hc⟩
  refine ⟨{ s4 with
    Q := fun j => if j < N then max (i j - s4.f j) 0 * (ps j).A_s else s4.Q j
    d := fun j => if j < N then max (s4.d j + (i j - s4.f j)) 0 else s4.d j
    t := s4.t + dt }, ?_⟩
  have e1 : stepA N ps dt i s = (if anyTrue N m3 then case3A N ps dt ia m3 s3 else pure s3) >>= fun s => pure
      { s with
        Q := fun j => if j < N then max (i j - s.f j) 0 * (ps j).A_s else s.Q j
        d := fun j => if j < N then max (s.d j + (i j - s.f j)) 0 else s.d j
        t := s.t + dt } := by
    refine (stepA_eq N ps dt i s).trans ?_
    rw [hA]; rfl
  rw [e1, hB]; rfl

/-- **C207 (exactly).** The object's step returns exactly if the steps of all its elements do: one element for which it
raises stops all. -/
theorem C207_returns_iff : (∃ s', stepA N ps dt i s = .ok s') ↔ ∀ j, j < N → ∃ c, step (ps j) dt (i j) (s.cell j) = .ok c :=
  ⟨fun ⟨_, h⟩ j hj => ⟨_, (C207_step h).2 j hj⟩, C207_returns⟩

/-- **C207 (every run).** Through every run each element passes the states it would pass alone. -/
theorem C207_run {l : List (ℝ × (ℕ → ℝ))} (h : runA N ps l s = .ok s') {j : ℕ} (hj : j < N) :
    run (ps j) (l.map fun q => (q.1, q.2 j)) (s.cell j) = .ok (s'.cell j) := by
  induction l generalizing s with
  | nil => cases h; rfl
  | cons q l ih =>
    obtain ⟨dt, i⟩ := q
    simp only [runA, bind, Except.bind] at h
    cases h1 : stepA N ps dt i s with
    | error e => rw [h1] at h; cases h
    | ok s1 =>
      rw [h1] at h
      simp only [List.map_cons, run, bind, Except.bind]
      rw [(C207_step h1).2 j hj]
      exact ih h

/-- A new object holds new elements. -/
theorem C207_initial (ps : ℕ → Soil) (j : ℕ) : (initials ps).cell j = initial (ps j) := rfl

/-- **C207 (independence).** Elements with the same soil and the same rain have the same history, in whatever company and at
whatever position. -/
theorem C207_independent {N' : ℕ} {ps' : ℕ → Soil} {l l' : List (ℝ × (ℕ → ℝ))} {a a' : GAs} {j j' : ℕ} (hj : j < N)
    (hj' : j' < N') (soil : ps' j' = ps j) (rain : l'.map (fun q => (q.1, q.2 j')) = l.map fun q => (q.1, q.2 j))
    (h : runA N ps l (initials ps) = .ok a) (h' : runA N' ps' l' (initials ps') = .ok a') : a'.cell j' = a.cell j := by
  have r := C207_run h hj
  have r' := C207_run h' hj'
  rw [C207_initial] at r r'
  rw [rain, soil] at r'
  exact Except.ok.inj (r'.symm.trans r)

/-- **C207 (runs return).** A run of the object returns exactly if the runs of all elements do. -/
theorem C207_run_iff {l : List (ℝ × (ℕ → ℝ))} :
    (∃ a, runA N ps l s = .ok a) ↔ ∀ j, j < N → ∃ c, run (ps j) (l.map fun q => (q.1, q.2 j)) (s.cell j) = .ok c := by
  refine ⟨fun ⟨a, h⟩ j hj => ⟨_, C207_run h hj⟩, fun h => ?_⟩
  induction l generalizing s with
  | nil => exact ⟨s, rfl⟩
  | cons q l ih =>
    obtain ⟨dt, i⟩ := q
    obtain ⟨s1, h1⟩ := C207_returns (N := N) (ps := ps) (dt := dt) (i := i) (s := s) fun j hj => by
      obtain ⟨c, hc⟩ := h j hj
      simp only [List.map_cons, run, bind, Except.bind] at hc
      cases hS : step (ps j) dt (i j) (s.cell j) with
      | ok v => exact ⟨v, rfl⟩
      | error e => rw [hS] at hc; cases hc
    obtain ⟨a, ha⟩ := ih (s := s1) fun j hj => by
      obtain ⟨c, hc⟩ := h j hj
      simp only [List.map_cons, run, bind, Except.bind] at hc
      rw [(C207_step h1).2 j hj] at hc
      exact ⟨c, hc⟩
    exact ⟨a, by simp only [runA, bind, Except.bind]; rw [h1]; exact ha⟩

/-- **C207 (reordering).** Listing the soil elements in another order lists the same results in that order. -/
theorem C207_reorder (π : ℕ → ℕ) (hπ : ∀ j, j < N → π j < N) {l : List (ℝ × (ℕ → ℝ))} {a : GAs}
    (h : runA N ps l (initials ps) = .ok a) :
    ∃ b, runA N (ps ∘ π) (l.map fun q => (q.1, q.2 ∘ π)) (initials (ps ∘ π)) = .ok b ∧
      ∀ j, j < N → b.cell j = a.cell (π j) := by
  have one : ∀ j, j < N → run ((ps ∘ π) j) ((l.map fun q => (q.1, q.2 ∘ π)).map fun q => (q.1, q.2 j))
      ((initials (ps ∘ π)).cell j) = .ok (a.cell (π j)) := fun j hj => by
    have r := C207_run h (hπ j hj)
    rw [List.map_map]
    exact r
  obtain ⟨b, hb⟩ := C207_run_iff.mpr fun j hj => ⟨_, one j hj⟩
  exact ⟨b, hb, fun j hj => Except.ok.inj ((C207_run hb hj).symm.trans (one j hj))⟩

/-- **C207 (completion).** Physical soils in bounded weather: every run of the whole object returns. -/
theorem C207_weather (hp : ∀ j, j < N → (ps j).Physical) {δ D I : ℝ} (hδ : 0 < δ) (hI : 0 ≤ I) {l : List (ℝ × (ℕ → ℝ))}
    (hl : ∀ q ∈ l, δ ≤ q.1 ∧ q.1 ≤ D ∧ ∀ j, j < N → 0 ≤ q.2 j ∧ q.2 j ≤ I)
    (hbig : l.length * (I * D + l.length * (I + 1.48e-8 / δ)) < 10 ^ 7) : ∃ a, runA N ps l (initials ps) = .ok a :=
  C207_run_iff.mpr fun j hj => by
    rw [C207_initial]
    refine C139_weather (hp j hj) hδ hI _ (fun q hq => ?_) (by rwa [List.length_map])
    obtain ⟨u, hu, rfl⟩ := List.mem_map.mp hq
    exact ⟨(hl u hu).1, (hl u hu).2.1, (hl u hu).2.2 j hj⟩

/-- Three soils, two of them alike, under a day of rain by the minute; the two alike have the same rain and end alike, and in
an object of its own that soil ends the same. -/
example (rain : List (ℝ × ℝ)) (hlen : rain.length = 1440) (hr : ∀ q ∈ rain, (0 ≤ q.1 ∧ q.1 ≤ 1e-4) ∧ 0 ≤ q.2 ∧ q.2 ≤ 1e-4) :
    let sand : Soil := ⟨0.05, 3e-5, 0.4, 100⟩
    let clay : Soil := ⟨0.3, 1e-7, 0.5, 50⟩
    let ps : ℕ → Soil := fun j => if j = 1 then clay else sand
    let l := rain.map fun q => ((60 : ℝ), fun j : ℕ => if j = 1 then q.2 else q.1)
    ∃ a b, runA 3 ps l (initials ps) = .ok a ∧ a.cell 0 = a.cell 2 ∧
      runA 1 (fun _ => sand) (rain.map fun q => (60, fun _ => q.1)) (initials fun _ => sand) = .ok b ∧
      b.cell 0 = a.cell 2 := by
  intro sand clay ps l
  have hs : sand.Physical := ⟨by norm_num [sand], by norm_num [sand], by norm_num [sand], by norm_num [sand]⟩
  have hc : clay.Physical := ⟨by norm_num [clay], by norm_num [clay], by norm_num [clay], by norm_num [clay]⟩
  obtain ⟨a, ha⟩ := C207_weather (N := 3) (ps := ps) (δ := 60) (D := 60) (I := 1e-4)
    (fun j _ => by by_cases h : j = 1 <;> simp only [ps, h, if_true, if_false] <;> assumption) (by norm_num) (by norm_num)
    (l := l)
    (fun q hq => by
      obtain ⟨u, hu, rfl⟩ := List.mem_map.mp hq
      refine ⟨le_rfl, le_rfl, fun j _ => ?_⟩
      by_cases h : j = 1
      · simp only [h, if_true]; exact (hr u hu).2
      · simp only [h, if_false]; exact (hr u hu).1)
    (by rw [List.length_map, hlen]; norm_num)
  obtain ⟨b, hb⟩ := C207_weather (N := 1) (ps := fun _ => sand) (δ := 60) (D := 60) (I := 1e-4)
    (fun _ _ => hs) (by norm_num) (by norm_num) (l := rain.map fun q => (60, fun _ => q.1))
    (fun q hq => by
      obtain ⟨u, hu, rfl⟩ := List.mem_map.mp hq
      exact ⟨le_rfl, le_rfl, fun j _ => (hr u hu).1⟩)
    (by rw [List.length_map, hlen]; norm_num)
  refine ⟨a, b, ha, ?_, hb, ?_⟩
  · exact C207_independent (by norm_num) (by norm_num) rfl (by simp [l, List.map_map, Function.comp_def]) ha ha
  · exact C207_independent (by norm_num) (by norm_num) rfl (by simp [l, List.map_map, Function.comp_def]) ha hb

end Pipedream.Infiltration
