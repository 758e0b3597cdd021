import Verif.InfiltrationArrayModel

/-!
# Selecting and writing back: lemmas for C207
-/

namespace Pipedream.Infiltration

open Pipedream.Link Pipedream.Root

theorem mem_flat {N : ℕ} {mask : ℕ → Bool} {j : ℕ} : j ∈ flat N mask ↔ j < N ∧ mask j = true := by
  simp [flat]

theorem nodup_flat (N : ℕ) (mask : ℕ → Bool) : (flat N mask).Nodup := List.nodup_range.filter _

theorem getD_mem {l : List ℕ} {q : ℕ} (h : q < l.length) : l.getD q 0 ∈ l := by
  rw [List.getD_eq_getElem?_getD, List.getElem?_eq_getElem h]; exact List.getElem_mem h

theorem exists_getD {l : List ℕ} {j : ℕ} (h : j ∈ l) : ∃ q, q < l.length ∧ l.getD q 0 = j := by
  obtain ⟨q, hq, e⟩ := List.getElem_of_mem h
  exact ⟨q, hq, by rw [List.getD_eq_getElem?_getD, List.getElem?_eq_getElem hq]; exact e⟩

theorem put_apply {K : Type*} (a : ℕ → K) {l : List ℕ} (v : ℕ → K) (g : ℕ → K)
    (h : ∀ q, q < l.length → v q = g (l.getD q 0)) (j : ℕ) : put a l v j = if j ∈ l then g j else a j := by
  have key : ∀ n, n ≤ l.length → ∀ j, forRange n (fun p b => upd b (l.getD p 0) (v p)) a j =
      if ∃ q, q < n ∧ l.getD q 0 = j then g j else a j := by
    intro n
    induction n with
    | zero => intro _ j; simp
    | succ n ih =>
      intro hn j
      rw [forRange_succ]
      by_cases e : j = l.getD n 0
      · subst e
        rw [upd_same, h n (by omega), if_pos ⟨n, by omega, rfl⟩]
      · rw [upd_other _ _ e, ih (by omega)]
        refine if_congr ⟨fun ⟨q, hq, e1⟩ => ⟨q, by omega, e1⟩, fun ⟨q, hq, e1⟩ => ⟨q, ?_, e1⟩⟩ rfl rfl
        rcases Nat.lt_succ_iff_lt_or_eq.mp hq with h1 | rfl
        · exact h1
        · exact absurd e1.symm e
  unfold put
  rw [key _ le_rfl j]
  exact if_congr ⟨fun ⟨q, hq, e⟩ => e ▸ getD_mem hq, exists_getD⟩ rfl rfl

theorem getD_inj {l : List ℕ} (nd : l.Nodup) {q r : ℕ} (hq : q < l.length) (hr : r < l.length)
    (h : l.getD q 0 = l.getD r 0) : q = r := by
  simp only [List.getD_eq_getElem?_getD, List.getElem?_eq_getElem hq, List.getElem?_eq_getElem hr, Option.getD_some] at h
  exact (nd.getElem_inj_iff).mp h

theorem put_at {K : Type*} (a : ℕ → K) {l : List ℕ} (nd : l.Nodup) (v : ℕ → K) {q : ℕ} (hq : q < l.length) :
    put a l v (l.getD q 0) = v q := by
  classical
  let pos : ℕ → ℕ := fun j => if h : ∃ r, r < l.length ∧ l.getD r 0 = j then h.choose else 0
  have hp : ∀ r, r < l.length → pos (l.getD r 0) = r := fun r hr => by
    have h : ∃ r', r' < l.length ∧ l.getD r' 0 = l.getD r 0 := ⟨r, hr, rfl⟩
    simp only [pos, dif_pos h]
    exact getD_inj nd h.choose_spec.1 hr h.choose_spec.2
  rw [put_apply a v (fun j => v (pos j)) (fun r hr => by simp only [hp r hr]), if_pos (getD_mem hq), hp q hq]

theorem put_off {K : Type*} (a : ℕ → K) {l : List ℕ} (v : ℕ → K) {j : ℕ} (hj : j ∉ l) : put a l v j = a j := by
  have key : ∀ n, n ≤ l.length → forRange n (fun p b => upd b (l.getD p 0) (v p)) a j = a j := by
    intro n
    induction n with
    | zero => intro _; rfl
    | succ n ih =>
      intro hn
      rw [forRange_succ, upd_other _ _ (fun e => hj (by rw [e]; exact getD_mem (by omega))), ih (by omega)]
  exact key _ le_rfl

theorem anyTrue_iff {n : ℕ} {c : ℕ → Bool} : anyTrue n c = true ↔ ∃ q, q < n ∧ c q = true := by
  simp [anyTrue]

theorem put_sel {K : Type*} (a g : ℕ → K) (l : List ℕ) (j : ℕ) : put a l (fun q => g (l.getD q 0)) j = if j ∈ l then g j else a j :=
  put_apply a _ g (fun _ _ => rfl) j

/-- Writing under a mask. -/
theorem whereSet_apply {K : Type*} (n : ℕ) (cond : ℕ → Bool) (a v g : ℕ → K)
    (h : ∀ r, r < (flat n cond).length → v r = g ((flat n cond).getD r 0)) {q : ℕ} (hq : q < n) :
    whereSet n cond a v q = if cond q then g q else a q := by
  unfold whereSet
  split_ifs with h1 h2 h2
  · rw [put_apply a v g h, if_pos (mem_flat.mpr ⟨hq, h2⟩)]
  · rw [put_apply a v g h, if_neg (fun h3 => h2 (mem_flat.mp h3).2)]
  · exact absurd (anyTrue_iff.mpr ⟨q, hq, h2⟩) h1
  · rfl

theorem fillE_ok {f : ℕ → Except GErr ℝ} {n : ℕ} {a : ℕ → ℝ} (h : fillE f n = .ok a) : ∀ q, q < n → f q = .ok (a q) := by
  induction n generalizing a with
  | zero => intro q hq; omega
  | succ n ih =>
    unfold fillE at h
    cases h1 : fillE f n with
    | error e => simp [h1, bind, Except.bind] at h
    | ok b =>
      cases h2 : f n with
      | error e => simp [h1, h2, bind, Except.bind] at h
      | ok v =>
        simp only [h1, h2, bind, Except.bind, pure, Except.pure, Except.ok.injEq] at h
        subst h
        intro q hq
        by_cases e : q = n
        · subst e; rw [upd_same, h2]
        · rw [upd_other _ _ e]; exact ih h1 q (by omega)

theorem fillE_total {f : ℕ → Except GErr ℝ} {n : ℕ} (h : ∀ q, q < n → ∃ v, f q = .ok v) : ∃ a, fillE f n = .ok a := by
  induction n with
  | zero => exact ⟨_, rfl⟩
  | succ n ih =>
    obtain ⟨a, ha⟩ := ih fun q hq => h q (by omega)
    obtain ⟨v, hv⟩ := h n (by omega)
    exact ⟨_, by simp [fillE, ha, hv, bind, Except.bind, pure, Except.pure]; rfl⟩

/-- The value of a computation, 0 if it fails. -/
noncomputable def val : Except GErr ℝ → ℝ
  | .ok v => v
  | .error _ => 0

/-- Under the mask the elements are changed by `f`, elsewhere nothing is changed; an exception is raised only if `f` raises
one for some element. -/
structure Acts (N : ℕ) (mask : ℕ → Bool) (f : ℕ → GA → Except GErr GA) (s : GAs) (r : Except GErr GAs) : Prop where
  ok : ∀ s', r = .ok s' → s'.t = s.t ∧
    ∀ j, (j < N → mask j = true → f j (s.cell j) = .ok (s'.cell j)) ∧ (¬(j < N ∧ mask j = true) → s'.cell j = s.cell j)
  total : (∀ j, j < N → mask j = true → ∃ c, f j (s.cell j) = .ok c) → ∃ s', r = .ok s'

theorem GAs.cell_eq {s s' : GAs} {j : ℕ} (h : s'.F j = s.F j ∧ s'.f j = s.f j ∧ s'.thdu j = s.thdu j ∧ s'.thd j = s.thd j ∧
    s'.T j = s.T j ∧ s'.d j = s.d j ∧ s'.Q j = s.Q j ∧ s'.t = s.t ∧ s'.sat j = s.sat j) : s'.cell j = s.cell j := by
  obtain ⟨h1, h2, h3, h4, h5, h6, h7, h8, h9⟩ := h
  simp [GAs.cell, *]

section
variable (N : ℕ) (ps : ℕ → Soil) (dt : ℝ) (ia : ℕ → ℝ) (mask : ℕ → Bool) (s : GAs)

/-- What an element's root finding returns in `saturated_case`. -/
noncomputable def satRoot (j : ℕ) : Except GErr ℝ := runNewton (ps j) (s.thd j) (ia j) (s.F j) (s.F j) dt

noncomputable def satInc1 (j : ℕ) : ℝ :=
  if val (satRoot ps dt ia s j) - s.F j > ia j * dt then ia j * dt else val (satRoot ps dt ia s j) - s.F j

theorem saturatedCase_cell (j : ℕ) : saturatedCase (ps j) dt (ia j) (s.cell j) =
    match satRoot ps dt ia s j with
    | .error e => .error e
    | .ok F2 => .ok
      { s.cell j with
        T := (ps j).Tr
        F := s.F j + (if F2 - s.F j > ia j * dt then ia j * dt else F2 - s.F j)
        thdu := clampTh (ps j) (s.thdu j - (if F2 - s.F j > ia j * dt then ia j * dt else F2 - s.F j) / (ps j).Lu)
        f := (if F2 - s.F j > ia j * dt then ia j * dt else F2 - s.F j) / dt
        sat := if F2 - s.F j > ia j * dt then false else s.sat j } := by
  simp only [saturatedCase, satRoot, bind, Except.bind, pure, Except.pure, GAs.cell]
  cases runNewton (ps j) (s.thd j) (ia j) (s.F j) (s.F j) dt <;> rfl

theorem satEnd_cell (F2 : ℕ → ℝ) (h : ∀ q, q < (flat N mask).length →
      satRoot ps dt ia s ((flat N mask).getD q 0) = .ok (F2 q)) (j : ℕ) :
    (j ∈ flat N mask → saturatedCase (ps j) dt (ia j) (s.cell j) = .ok ((satEnd N ps dt ia mask s F2).cell j)) ∧
    (j ∉ flat N mask → (satEnd N ps dt ia mask s F2).cell j = s.cell j) := by
  have hv : ∀ q, q < (flat N mask).length → F2 q = val (satRoot ps dt ia s ((flat N mask).getD q 0)) := fun q hq => by
    rw [h q hq]; rfl
  have hc : ∀ q, q < (flat N mask).length → (tooMuch dt (sel ia (flat N mask)) (sel s.F (flat N mask)) F2 q = true ↔
      val (satRoot ps dt ia s ((flat N mask).getD q 0)) - s.F ((flat N mask).getD q 0) > ia ((flat N mask).getD q 0) * dt) := by
    intro q hq
    rw [← hv q hq]
    exact decide_eq_true_iff
  have hd : ∀ q, q < (flat N mask).length →
      satInc (flat N mask).length dt (sel ia (flat N mask)) (sel s.F (flat N mask)) F2 q =
        satInc1 ps dt ia s ((flat N mask).getD q 0) := by
    intro q hq
    unfold satInc satInc1
    refine (whereSet_apply _ _ _ _ (fun q => sel ia (flat N mask) q * dt) (fun r _ => rfl) hq).trans ?_
    refine if_congr (hc q hq) rfl ?_
    rw [hv q hq]; rfl
  have hs : ∀ q, q < (flat N mask).length →
      whereSet (flat N mask).length (tooMuch dt (sel ia (flat N mask)) (sel s.F (flat N mask)) F2) (sel s.sat (flat N mask))
        (fun _ => false) q =
      (fun j => if val (satRoot ps dt ia s j) - s.F j > ia j * dt then false else s.sat j) ((flat N mask).getD q 0) := by
    intro q hq
    rw [whereSet_apply _ _ _ _ (fun _ => false) (fun r _ => rfl) hq]
    exact if_congr (hc q hq) rfl rfl
  have eT := put_sel s.T (fun j => (ps j).Tr) (flat N mask) j
  have eF := put_apply s.F (l := flat N mask) (fun q => sel s.F (flat N mask) q +
    satInc (flat N mask).length dt (sel ia (flat N mask)) (sel s.F (flat N mask)) F2 q)
    (fun j => s.F j + satInc1 ps dt ia s j) (fun q hq => by rw [hd q hq]; rfl) j
  have ef := put_apply s.f (l := flat N mask) (fun q =>
    satInc (flat N mask).length dt (sel ia (flat N mask)) (sel s.F (flat N mask)) F2 q / dt)
    (fun j => satInc1 ps dt ia s j / dt) (fun q hq => by rw [hd q hq]) j
  have eu := put_apply s.thdu (l := flat N mask) (fun q => clampTh (sel ps (flat N mask) q) (sel s.thdu (flat N mask) q -
    satInc (flat N mask).length dt (sel ia (flat N mask)) (sel s.F (flat N mask)) F2 q / (sel ps (flat N mask) q).Lu))
    (fun j => clampTh (ps j) (s.thdu j - satInc1 ps dt ia s j / (ps j).Lu)) (fun q hq => by rw [hd q hq]; rfl) j
  have es := put_apply s.sat (l := flat N mask) _
    (fun j => if val (satRoot ps dt ia s j) - s.F j > ia j * dt then false else s.sat j) hs j
  constructor
  · intro hj
    obtain ⟨q, hq, e⟩ := exists_getD hj
    have hR := h q hq
    rw [e] at hR
    rw [if_pos hj] at eT eF ef eu es
    rw [saturatedCase_cell, hR]
    have hval : val (satRoot ps dt ia s j) = F2 q := by rw [hR]; rfl
    simp only [satInc1, hval] at eF ef eu es
    simp only [Except.ok.injEq]
    simp only [GAs.cell, satEnd, GA.mk.injEq]
    exact ⟨eF.symm, ef.symm, eu.symm, trivial, eT.symm, trivial, trivial, trivial, es.symm⟩
  · intro hj
    rw [if_neg hj] at eT eF ef eu es
    simp only [GAs.cell, satEnd, GA.mk.injEq]
    exact ⟨eF, ef, eu, trivial, eT, trivial, trivial, trivial, es⟩

theorem satA_acts : Acts N mask (fun j => saturatedCase (ps j) dt (ia j)) s (satA N ps dt ia mask s) := by
  constructor
  · intro s' h
    unfold satA at h
    simp only [bind, Except.bind, pure, Except.pure] at h
    cases hF : fillE (fun q => satRoot ps dt ia s ((flat N mask).getD q 0)) (flat N mask).length with
    | error e => 
      simp only [satRoot] at hF
      simp only [sel, hF] at h
      cases h
    | ok F2 =>
      have hc := satEnd_cell N ps dt ia mask s F2 (fillE_ok hF)
      simp only [satRoot] at hF
      simp only [sel, hF, Except.ok.injEq] at h
      subst h
      exact ⟨rfl, fun j => ⟨fun h1 h2 => (hc j).1 (mem_flat.mpr ⟨h1, h2⟩), fun h1 => (hc j).2 fun h2 => h1 (mem_flat.mp h2)⟩⟩
  · intro h
    have : ∃ a, fillE (fun q => satRoot ps dt ia s ((flat N mask).getD q 0)) (flat N mask).length = .ok a := by
      refine fillE_total fun q hq => ?_
      have hl := mem_flat.mp (getD_mem hq)
      obtain ⟨c, hc⟩ := h _ hl.1 hl.2
      rw [saturatedCase_cell] at hc
      cases hR : satRoot ps dt ia s ((flat N mask).getD q 0) with
      | ok v => exact ⟨v, rfl⟩
      | error e => rw [hR] at hc; cases hc
    obtain ⟨a, ha⟩ := this
    simp only [satRoot] at ha
    simp only [satA, sel, ha, bind, Except.bind, pure, Except.pure]
    exact ⟨_, rfl⟩

theorem case1A_cell (j : ℕ) :
    (j ∈ flat N mask → (case1A N ps dt mask s).cell j = case1 (ps j) dt (s.cell j)) ∧
    (j ∉ flat N mask → (case1A N ps dt mask s).cell j = s.cell j) := by
  have hF := put_apply s.F (l := flat N mask) (whereSet (flat N mask).length (fun q => decide (sel s.T (flat N mask) q ≤ 0))
      (fun q => sel s.F (flat N mask) q - (sel ps (flat N mask) q).kr * (sel ps (flat N mask) q).thmax * dt *
        (sel ps (flat N mask) q).Lu) fun _ => 0)
    (fun j => if s.T j ≤ 0 then 0 else s.F j - (ps j).kr * (ps j).thmax * dt * (ps j).Lu) (fun q hq => by
      rw [whereSet_apply _ _ _ _ (fun _ => 0) (fun _ _ => rfl) hq]
      exact if_congr decide_eq_true_iff rfl rfl) j
  have hu := put_sel s.thdu (fun j => clampTh (ps j) (s.thdu j + (ps j).kr * (ps j).thmax * dt)) (flat N mask) j
  have hf := put_sel s.f (fun _ => (0 : ℝ)) (flat N mask) j
  have hd := put_apply s.thd (l := flat N mask) (whereSet (flat N mask).length (fun q => decide (sel s.T (flat N mask) q ≤ 0))
      (sel s.thd (flat N mask)) (sel (fun q => clampTh (sel ps (flat N mask) q) (sel s.thdu (flat N mask) q +
        (sel ps (flat N mask) q).kr * (sel ps (flat N mask) q).thmax * dt))
        (flat (flat N mask).length fun q => decide (sel s.T (flat N mask) q ≤ 0))))
    (fun j => if s.T j ≤ 0 then clampTh (ps j) (s.thdu j + (ps j).kr * (ps j).thmax * dt) else s.thd j) (fun q hq => by
      refine (whereSet_apply _ _ _ _ (fun q => clampTh (sel ps (flat N mask) q) (sel s.thdu (flat N mask) q +
        (sel ps (flat N mask) q).kr * (sel ps (flat N mask) q).thmax * dt)) (fun _ _ => rfl) hq).trans ?_
      exact if_congr decide_eq_true_iff rfl rfl) j
  constructor <;> intro hj
  · rw [if_pos hj] at hF hu hf hd
    simp only [GAs.cell, case1A, case1, GA.mk.injEq]
    exact ⟨hF, hf, hu, hd, trivial, trivial, trivial, trivial, trivial⟩
  · rw [if_neg hj] at hF hu hf hd
    simp only [GAs.cell, case1A, GA.mk.injEq]
    exact ⟨hF, hf, hu, hd, trivial, trivial, trivial, trivial, trivial⟩

theorem case2A_cell (j : ℕ) :
    (j ∈ flat N mask → (case2A N ps dt ia mask s).cell j = case2 (ps j) dt (ia j) (s.cell j)) ∧
    (j ∉ flat N mask → (case2A N ps dt ia mask s).cell j = s.cell j) := by
  have hF := put_sel s.F (fun j => s.F j + ia j * dt) (flat N mask) j
  have hu := put_sel s.thdu (fun j => clampTh (ps j) (s.thdu j - ia j * dt / (ps j).Lu)) (flat N mask) j
  have hf := put_sel s.f ia (flat N mask) j
  constructor <;> intro hj
  · rw [if_pos hj] at hF hu hf
    simp only [GAs.cell, case2A, case2, GA.mk.injEq]
    exact ⟨hF, hf, hu, trivial, trivial, trivial, trivial, trivial, trivial⟩
  · rw [if_neg hj] at hF hu hf
    simp only [GAs.cell, case2A, GA.mk.injEq]
    exact ⟨hF, hf, hu, trivial, trivial, trivial, trivial, trivial, trivial⟩

/-- Elements of the case on which a condition on the elements holds. -/
theorem mem_sub {l : List ℕ} {P : ℕ → Bool} {j : ℕ} :
    j ∈ ((flat l.length fun q => P (l.getD q 0)).map fun q => l.getD q 0) ↔ j ∈ l ∧ P j = true := by
  simp only [List.mem_map, mem_flat]
  constructor
  · rintro ⟨q, ⟨hq, hP⟩, rfl⟩
    exact ⟨getD_mem hq, hP⟩
  · rintro ⟨hj, hP⟩
    obtain ⟨q, hq, e⟩ := exists_getD hj
    exact ⟨q, ⟨hq, by rw [e]; exact hP⟩, e⟩

variable {ps dt ia s}

theorem part0_spec {l : List ℕ} (nd : l.Nodup) (lt : ∀ j ∈ l, j < N) (P : ℕ → Bool) (x : Loc) :
    (∀ r, part0 N ps dt ia l (fun q => P (l.getD q 0)) s x = .ok r →
      r.1.t = s.t ∧
      (∀ j, j ∈ l → P j = true → saturatedCase (ps j) dt (ia j) { s.cell j with sat := true } = .ok (r.1.cell j)) ∧
      (∀ j, ¬(j ∈ l ∧ P j = true) → r.1.cell j = s.cell j) ∧
      ∀ q, q < l.length →
        r.2.F q = (if P (l.getD q 0) then r.1.F (l.getD q 0) else x.F q) ∧
        r.2.f q = (if P (l.getD q 0) then r.1.f (l.getD q 0) else x.f q) ∧
        r.2.thdu q = (if P (l.getD q 0) then r.1.thdu (l.getD q 0) else x.thdu q)) ∧
    ((∀ j, j ∈ l → P j = true → ∃ c, saturatedCase (ps j) dt (ia j) { s.cell j with sat := true } = .ok c) →
      ∃ r, part0 N ps dt ia l (fun q => P (l.getD q 0)) s x = .ok r) := by
  by_cases ha : anyTrue l.length (fun q => P (l.getD q 0)) = true
  swap
  · have no : ∀ j, j ∈ l → ¬ P j = true := fun j hj hP => by
      obtain ⟨q, hq, e⟩ := exists_getD hj
      exact ha (anyTrue_iff.mpr ⟨q, hq, by rw [e]; exact hP⟩)
    have e : part0 N ps dt ia l (fun q => P (l.getD q 0)) s x = .ok (s, x) := by
      unfold part0
      rw [if_neg ha]; rfl
    rw [e]
    refine ⟨fun r hr => ?_, fun _ => ⟨_, rfl⟩⟩
    cases hr
    refine ⟨rfl, fun j hj hP => absurd hP (no j hj), fun _ _ => rfl, fun q hq => ?_⟩
    simp only [if_neg (no _ (getD_mem hq)), and_self]
  · let s0 : GAs := { s with sat := put s.sat l (put (sel s.sat l) (flat l.length fun q => P (l.getD q 0)) fun _ => true) }
    let m0 : ℕ → Bool :=
      put (fun _ => false) ((flat l.length fun q => P (l.getD q 0)).map fun q => l.getD q 0) fun _ => true
    have hm : ∀ j, m0 j = true ↔ j ∈ l ∧ P j = true := fun j => by
      simp only [m0]
      rw [put_apply _ _ (fun _ => true) (fun _ _ => rfl)]
      by_cases h : j ∈ ((flat l.length fun q => P (l.getD q 0)).map fun q => l.getD q 0)
      · rw [if_pos h]; exact ⟨fun _ => mem_sub.mp h, fun _ => rfl⟩
      · rw [if_neg h]
        exact ⟨fun h1 => absurd h1 (by simp), fun h' => absurd (mem_sub.mpr h') h⟩
    have hs : ∀ j, s0.cell j = if j ∈ l ∧ P j = true then { s.cell j with sat := true } else s.cell j := fun j => by
      have e : s0.sat j = if j ∈ l ∧ P j = true then true else s.sat j := by
        simp only [s0]
        by_cases hj : j ∈ l
        · obtain ⟨q, hq, rfl⟩ := exists_getD hj
          rw [put_at _ nd _ hq, put_apply _ _ (fun _ => true) (fun _ _ => rfl)]
          by_cases hP : P (l.getD q 0) = true
          · rw [if_pos (mem_flat.mpr ⟨hq, hP⟩), if_pos ⟨hj, hP⟩]
          · rw [if_neg (fun h => hP (mem_flat (mask := fun q => P (l.getD q 0)).mp h).2), if_neg (fun h => hP h.2)]; rfl
        · rw [put_off _ _ hj, if_neg (fun h => hj h.1)]
      split_ifs with h
      · rw [if_pos h] at e
        simp only [GAs.cell, e]; rfl
      · rw [if_neg h] at e
        simp only [GAs.cell, e]; rfl
    have act := satA_acts N ps dt ia m0 s0
    have e : part0 N ps dt ia l (fun q => P (l.getD q 0)) s x = (satA N ps dt ia m0 s0).bind fun s => .ok
        (s, ⟨put x.F (flat l.length fun q => P (l.getD q 0)) (sel (sel s.F l) (flat l.length fun q => P (l.getD q 0))),
          put x.f (flat l.length fun q => P (l.getD q 0)) (sel (sel s.f l) (flat l.length fun q => P (l.getD q 0))),
          put x.thdu (flat l.length fun q => P (l.getD q 0)) (sel (sel s.thdu l) (flat l.length fun q => P (l.getD q 0)))⟩) := by
      unfold part0
      rw [if_pos ha]; rfl
    rw [e]
    constructor
    · intro r hr
      cases hA : satA N ps dt ia m0 s0 with
      | error err => rw [hA] at hr; cases hr
      | ok s1 =>
        rw [hA] at hr
        cases hr
        obtain ⟨ht, hc⟩ := act.ok s1 hA
        refine ⟨ht, fun j hj hP => ?_, fun j hn => ?_, fun q hq => ?_⟩
        · have := (hc j).1 (lt j hj) ((hm j).mpr ⟨hj, hP⟩)
          rw [hs j, if_pos ⟨hj, hP⟩] at this
          exact this
        · have := (hc j).2 (fun h => hn ((hm j).mp h.2))
          rw [hs j, if_neg hn] at this
          exact this
        · have key : ∀ X Y : ℕ → ℝ, put X (flat l.length fun q => P (l.getD q 0))
              (sel (sel Y l) (flat l.length fun q => P (l.getD q 0))) q = if P (l.getD q 0) then Y (l.getD q 0) else X q := by
            intro X Y
            refine (put_apply X _ (sel Y l) (fun _ _ => rfl) q).trans ?_
            exact if_congr ⟨fun h => (mem_flat (mask := fun q => P (l.getD q 0)).mp h).2,
              fun h => mem_flat.mpr ⟨hq, h⟩⟩ rfl rfl
          exact ⟨key _ _, key _ _, key _ _⟩
    · intro h
      obtain ⟨s1, hA⟩ := act.total fun j _ hmj => by
        have := (hm j).mp hmj
        obtain ⟨c, hc⟩ := h j this.1 this.2
        exact ⟨c, by rw [hs j, if_pos this]; exact hc⟩
      exact ⟨_, by rw [hA]; rfl⟩

theorem part1_spec (c : Ctx) (dt : ℝ) (cond : ℕ → Bool) (x : Loc) {q : ℕ} (hq : q < c.n) :
    (part1 c dt cond x).F q = (if cond q then x.F q + c.ia q * dt else x.F q) ∧
    (part1 c dt cond x).f q = (if cond q then c.ia q else x.f q) ∧
    (part1 c dt cond x).thdu q = (if cond q then clampTh (c.p q) (x.thdu q - c.ia q * dt / (c.p q).Lu) else x.thdu q) :=
  ⟨whereSet_apply _ _ _ _ (fun q => x.F q + c.ia q * dt) (fun _ _ => rfl) hq,
   whereSet_apply _ _ _ _ (fun q => c.ia q) (fun _ _ => rfl) hq,
   whereSet_apply _ _ _ _ (fun q => clampTh (c.p q) (x.thdu q - c.ia q * dt / (c.p q).Lu)) (fun _ _ => rfl) hq⟩

theorem part2_spec (c : Ctx) (dt : ℝ) (cond : ℕ → Bool) (x : Loc) :
    (∀ y, part2 c dt cond x = .ok y → ∀ q, q < c.n →
      (cond q = true → runNewton (c.p q) (c.thd q) (c.ia q) (x.F q) (c.Fs q) (dt - (c.Fs q - x.F q) / c.ia q) = .ok (y.F q) ∧
        y.f q = (y.F q - x.F q) / dt ∧ y.thdu q = clampTh (c.p q) (x.thdu q - (y.F q - x.F q) / (c.p q).Lu)) ∧
      (¬ cond q = true → y.F q = x.F q ∧ y.f q = x.f q ∧ y.thdu q = x.thdu q)) ∧
    ((∀ q, q < c.n → cond q = true → ∃ v, runNewton (c.p q) (c.thd q) (c.ia q) (x.F q) (c.Fs q)
      (dt - (c.Fs q - x.F q) / c.ia q) = .ok v) → ∃ y, part2 c dt cond x = .ok y) := by
  by_cases ha : anyTrue c.n cond = true
  swap
  · have e : part2 c dt cond x = .ok x := by unfold part2; rw [if_neg ha]; rfl
    rw [e]
    refine ⟨fun y hy q hq => ?_, fun _ => ⟨_, rfl⟩⟩
    cases hy
    exact ⟨fun h => absurd (anyTrue_iff.mpr ⟨q, hq, h⟩) ha, fun _ => ⟨rfl, rfl, rfl⟩⟩
  · let R : ℕ → Except GErr ℝ := fun q => runNewton (c.p q) (c.thd q) (c.ia q) (x.F q) (c.Fs q) (dt - (c.Fs q - x.F q) / c.ia q)
    have e : part2 c dt cond x = (fillE (fun r => R ((flat c.n cond).getD r 0)) (flat c.n cond).length).bind fun F2 => .ok
        (part2End c dt cond x F2) := by unfold part2; rw [if_pos ha]; rfl
    rw [e]
    constructor
    · intro y hy q hq
      cases hF : fillE (fun r => R ((flat c.n cond).getD r 0)) (flat c.n cond).length with
      | error err => rw [hF] at hy; cases hy
      | ok F2 =>
        rw [hF] at hy
        cases hy
        have hR := fillE_ok hF
        constructor
        · intro hc
          obtain ⟨r, hr, rfl⟩ := exists_getD (mem_flat.mpr ⟨hq, hc⟩)
          have nd := nodup_flat c.n cond
          have eF : (part2End c dt cond x F2).F ((flat c.n cond).getD r 0) = F2 r := put_at _ nd _ hr
          have ef := put_at x.f nd (fun r => (F2 r - sel x.F (flat c.n cond) r) / dt) hr
          have eu := put_at x.thdu nd (fun r => clampTh (sel c.p (flat c.n cond) r) (sel x.thdu (flat c.n cond) r -
            (F2 r - sel x.F (flat c.n cond) r) / (sel c.p (flat c.n cond) r).Lu)) hr
          rw [eF]
          exact ⟨hR r hr, ef, eu⟩
        · intro hc
          have hj : q ∉ flat c.n cond := fun h => hc (mem_flat.mp h).2
          exact ⟨put_off _ _ hj, put_off _ _ hj, put_off _ _ hj⟩
    · intro h
      obtain ⟨F2, hF⟩ := fillE_total (f := fun r => R ((flat c.n cond).getD r 0)) (n := (flat c.n cond).length) fun r hr =>
        h _ (mem_flat.mp (getD_mem hr)).1 (mem_flat.mp (getD_mem hr)).2
      exact ⟨_, by rw [hF]; rfl⟩

theorem saturatedCase_d {p : Soil} {dt ia : ℝ} {c c' : GA} (h : saturatedCase p dt ia c = .ok c') :
    c'.thd = c.thd ∧ c'.T = p.Tr ∧ c'.d = c.d ∧ c'.Q = c.Q ∧ c'.t = c.t := by
  simp only [saturatedCase, bind, Except.bind, pure, Except.pure] at h
  cases hr : runNewton p c.thd ia c.F c.F dt with
  | error e => simp [hr] at h
  | ok v =>
    simp only [hr, Except.ok.injEq] at h
    subst h
    exact ⟨rfl, rfl, rfl, rfl, rfl⟩

/-- The volume needed to saturate the surface, per element — ninfiltration.py 76. -/
noncomputable def volS (ps : ℕ → Soil) (ia : ℕ → ℝ) (s : GAs) (j : ℕ) : ℝ :=
  (ps j).Ks * (ps j).psi * s.thd j / (ia j - (ps j).Ks)

/-- `unsaturated_case_3` of one element, by its three parts. -/
theorem case3_cell (ps : ℕ → Soil) (dt : ℝ) (ia : ℕ → ℝ) (s : GAs) (j : ℕ) : case3 (ps j) dt (ia j) (s.cell j) =
    if s.F j ≥ volS ps ia s j then saturatedCase (ps j) dt (ia j) { s.cell j with T := (ps j).Tr, sat := true }
    else if s.F j + ia j * dt < volS ps ia s j then
      .ok { s.cell j with
        T := (ps j).Tr
        f := ia j
        F := s.F j + ia j * dt
        thdu := clampTh (ps j) (s.thdu j - ia j * dt / (ps j).Lu) }
    else
      (runNewton (ps j) (s.thd j) (ia j) (s.F j) (volS ps ia s j) (dt - (volS ps ia s j - s.F j) / ia j)).bind fun F2 =>
        .ok { s.cell j with
          T := (ps j).Tr
          F := F2
          thdu := clampTh (ps j) (s.thdu j - (F2 - s.F j) / (ps j).Lu)
          f := (F2 - s.F j) / dt } := rfl

theorem case3A_acts (ps : ℕ → Soil) (dt : ℝ) (ia : ℕ → ℝ) (mask : ℕ → Bool) (s : GAs) :
    Acts N mask (fun j => case3 (ps j) dt (ia j)) s (case3A N ps dt ia mask s) := by
  have nd := nodup_flat N mask
  have lt : ∀ j ∈ flat N mask, j < N := fun j hj => (mem_flat.mp hj).1
  let P0 : ℕ → Bool := fun j => decide (s.F j ≥ volS ps ia s j)
  let P1 : ℕ → Bool := fun j => decide (s.F j + ia j * dt < volS ps ia s j) && !P0 j
  let P2 : ℕ → Bool := fun j => !P0 j && !P1 j
  let c : Ctx := ⟨(flat N mask).length, sel ps (flat N mask), sel ia (flat N mask), sel s.thd (flat N mask),
    fun q => (sel ps (flat N mask) q).Ks * (sel ps (flat N mask) q).psi * sel s.thd (flat N mask) q /
      (sel ia (flat N mask) q - (sel ps (flat N mask) q).Ks)⟩
  let x : Loc := ⟨sel s.F (flat N mask), sel s.f (flat N mask), sel s.thdu (flat N mask)⟩
  let sT : GAs := { s with T := put s.T (flat N mask) fun q => (sel ps (flat N mask) q).Tr }
  have hT : ∀ j, sT.T j = if j ∈ flat N mask then (ps j).Tr else s.T j := put_sel s.T (fun j => (ps j).Tr) (flat N mask)
  have e : case3A N ps dt ia mask s =
      (part0 N ps dt ia (flat N mask) (fun q => P0 ((flat N mask).getD q 0)) sT x).bind fun r =>
      (part2 c dt (fun q => P2 ((flat N mask).getD q 0)) (part1 c dt (fun q => P1 ((flat N mask).getD q 0)) r.2)).bind fun y =>
      .ok { r.1 with
        F := put r.1.F (flat N mask) y.F
        f := put r.1.f (flat N mask) y.f
        thdu := put r.1.thdu (flat N mask) y.thdu } := rfl
  have p0 := part0_spec N (ps := ps) (dt := dt) (ia := ia) (s := sT) nd lt P0 x
  have p2 := part2_spec c dt (fun q => P2 ((flat N mask).getD q 0))
  have cellT : ∀ j, j ∈ flat N mask → sT.cell j = { s.cell j with T := (ps j).Tr } := fun j hj => by
    have := hT j
    rw [if_pos hj] at this
    simp only [GAs.cell, this]; rfl
  have cellN : ∀ j, j ∉ flat N mask → sT.cell j = s.cell j := fun j hj => by
    have := hT j
    rw [if_neg hj] at this
    simp only [GAs.cell, this]; rfl
  have ex : ∀ j, (P0 j = true ∧ s.F j ≥ volS ps ia s j ∧ ¬ P1 j = true ∧ ¬ P2 j = true) ∨
      (¬ P0 j = true ∧ ¬ s.F j ≥ volS ps ia s j ∧ P1 j = true ∧ s.F j + ia j * dt < volS ps ia s j ∧ ¬ P2 j = true) ∨
      (¬ P0 j = true ∧ ¬ s.F j ≥ volS ps ia s j ∧ ¬ P1 j = true ∧ ¬ s.F j + ia j * dt < volS ps ia s j ∧ P2 j = true) := by
    intro j
    by_cases h0 : s.F j ≥ volS ps ia s j
    · have b0 : P0 j = true := decide_eq_true h0
      exact .inl ⟨b0, h0, by simp [P1, b0], by simp [P2, b0]⟩
    · have b0 : P0 j = false := decide_eq_false h0
      by_cases h1 : s.F j + ia j * dt < volS ps ia s j
      · have b1 : P1 j = true := by simp only [P1, b0, decide_eq_true h1]; rfl
        exact .inr (.inl ⟨by simp [b0], h0, b1, h1, by simp [P2, b0, b1]⟩)
      · have b1 : P1 j = false := by simp only [P1, b0, decide_eq_false h1]; rfl
        exact .inr (.inr ⟨by simp [b0], h0, by simp [b1], h1, by simp [P2, b0, b1]⟩)
  rw [e]
  constructor
  · intro s' h
    cases hA : part0 N ps dt ia (flat N mask) (fun q => P0 ((flat N mask).getD q 0)) sT x with
    | error err => rw [hA] at h; cases h
    | ok r =>
      rw [hA] at h
      obtain ⟨ht, h0, hn, hx⟩ := p0.1 r hA
      simp only [Except.bind] at h
      cases hB : part2 c dt (fun q => P2 ((flat N mask).getD q 0)) (part1 c dt (fun q => P1 ((flat N mask).getD q 0)) r.2) with
      | error err => rw [hB] at h; cases h
      | ok y =>
        rw [hB] at h
        cases h
        have hy := (p2 _).1 y hB
        refine ⟨ht, fun j => ⟨fun hj hm => ?_, fun hno => ?_⟩⟩
        · have hj' : j ∈ flat N mask := mem_flat.mpr ⟨hj, hm⟩
          obtain ⟨q, hq, rfl⟩ := exists_getD hj'
          have eF := put_at r.1.F nd y.F hq
          have ef := put_at r.1.f nd y.f hq
          have eu := put_at r.1.thdu nd y.thdu hq
          obtain ⟨x1, x2, x3⟩ := hx q hq
          obtain ⟨w1, w2, w3⟩ := part1_spec c dt (fun q => P1 ((flat N mask).getD q 0)) r.2 hq
          rw [case3_cell]
          rcases ex ((flat N mask).getD q 0) with ⟨b0, a0, b1, b2⟩ | ⟨b0, a0, b1, a1, b2⟩ | ⟨b0, a0, b1, a1, b2⟩
          · rw [if_pos a0]
            have hs := h0 _ hj' b0
            rw [cellT _ hj'] at hs
            obtain ⟨y1, y2, y3⟩ := (hy q hq).2 b2
            rw [if_neg b1] at w1 w2 w3
            rw [if_pos b0] at x1 x2 x3
            refine hs.trans (congrArg Except.ok ?_)
            refine GAs.cell_eq ⟨?_, ?_, ?_, rfl, rfl, rfl, rfl, rfl, rfl⟩
            · exact (eF.trans (y1.trans (w1.trans x1))).symm
            · exact (ef.trans (y2.trans (w2.trans x2))).symm
            · exact (eu.trans (y3.trans (w3.trans x3))).symm
          · rw [if_neg a0, if_pos a1]
            have hs := hn ((flat N mask).getD q 0) (fun h => b0 h.2)
            rw [cellT _ hj'] at hs
            obtain ⟨y1, y2, y3⟩ := (hy q hq).2 b2
            rw [if_pos b1] at w1 w2 w3
            rw [if_neg b0] at x1 x2 x3
            rw [x1] at w1
            rw [x3] at w3
            simp only [GAs.cell, GA.mk.injEq] at hs
            obtain ⟨-, -, -, g4, g5, g6, g7, g8, g9⟩ := hs
            simp only [GAs.cell, Except.ok.injEq, GA.mk.injEq]
            exact ⟨(eF.trans (y1.trans w1)).symm, (ef.trans (y2.trans w2)).symm, (eu.trans (y3.trans w3)).symm,
              g4.symm, g5.symm, g6.symm, g7.symm, g8.symm, g9.symm⟩
          · rw [if_neg a0, if_neg a1]
            have hs := hn ((flat N mask).getD q 0) (fun h => b0 h.2)
            rw [cellT _ hj'] at hs
            obtain ⟨y1, y2, y3⟩ := (hy q hq).1 b2
            rw [if_neg b1] at w1 w2 w3
            rw [if_neg b0] at x1 x2 x3
            rw [w1.trans x1] at y1 y2 y3
            rw [w3.trans x3] at y3
            have y1' : runNewton (ps ((flat N mask).getD q 0)) (s.thd ((flat N mask).getD q 0)) (ia ((flat N mask).getD q 0))
              (s.F ((flat N mask).getD q 0)) (volS ps ia s ((flat N mask).getD q 0))
              (dt - (volS ps ia s ((flat N mask).getD q 0) - s.F ((flat N mask).getD q 0)) / ia ((flat N mask).getD q 0)) =
                .ok (y.F q) := y1
            rw [y1']
            simp only [GAs.cell, GA.mk.injEq] at hs
            obtain ⟨-, -, -, g4, g5, g6, g7, g8, g9⟩ := hs
            simp only [Except.bind, GAs.cell, Except.ok.injEq, GA.mk.injEq]
            exact ⟨eF.symm, (ef.trans y2).symm, (eu.trans y3).symm, g4.symm, g5.symm, g6.symm, g7.symm, g8.symm, g9.symm⟩
        · have hj' : j ∉ flat N mask := fun h => hno (mem_flat.mp h)
          have hs := hn j (fun h => hj' h.1)
          rw [cellN j hj'] at hs
          rw [← hs]
          exact GAs.cell_eq ⟨put_off _ _ hj', put_off _ _ hj', put_off _ _ hj', rfl, rfl, rfl, rfl, rfl, rfl⟩
  · intro h
    have h' : ∀ j, j ∈ flat N mask → ∃ c, case3 (ps j) dt (ia j) (s.cell j) = .ok c := fun j hj =>
      h j (mem_flat.mp hj).1 (mem_flat.mp hj).2
    obtain ⟨r, hA⟩ := p0.2 fun j hj hP => by
      obtain ⟨c, hc⟩ := h' j hj
      rw [case3_cell, if_pos (of_decide_eq_true hP)] at hc
      rw [cellT j hj]
      exact ⟨c, hc⟩
    obtain ⟨-, -, -, hx⟩ := p0.1 r hA
    obtain ⟨y, hB⟩ := (p2 (part1 c dt (fun q => P1 ((flat N mask).getD q 0)) r.2)).2 fun q hq hP => by
      obtain ⟨w1, -, -⟩ := part1_spec c dt (fun q => P1 ((flat N mask).getD q 0)) r.2 hq
      obtain ⟨x1, -, -⟩ := hx q hq
      obtain ⟨d, hd⟩ := h' _ (getD_mem hq)
      rcases ex ((flat N mask).getD q 0) with ⟨-, -, -, b2⟩ | ⟨-, -, -, -, b2⟩ | ⟨b0, a0, b1, a1, b2⟩
      · exact absurd hP b2
      · exact absurd hP b2
      · rw [case3_cell, if_neg a0, if_neg a1] at hd
        rw [if_neg b1] at w1
        rw [if_neg b0] at x1
        rw [w1.trans x1]
        cases hR : runNewton (ps ((flat N mask).getD q 0)) (s.thd ((flat N mask).getD q 0)) (ia ((flat N mask).getD q 0))
              (s.F ((flat N mask).getD q 0)) (volS ps ia s ((flat N mask).getD q 0))
              (dt - (volS ps ia s ((flat N mask).getD q 0) - s.F ((flat N mask).getD q 0)) / ia ((flat N mask).getD q 0)) with
        | error err => rw [hR] at hd; cases hd
        | ok v => exact ⟨v, hR⟩
    exact ⟨_, by rw [hA]; simp only [Except.bind]; rw [hB]⟩

end

end Pipedream.Infiltration
