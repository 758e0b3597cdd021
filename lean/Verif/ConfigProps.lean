import Verif.ConfigModel
import Verif.GeometryBaseProps
import Verif.StorageProps

/-!
# Section names (C114)
-/

namespace Pipedream.Config

open Pipedream.Geometry Pipedream.Interp Pipedream.Step

/-! ### What a user reads in the documentation -/

/-- Names of the regular shapes. -/
def supported : List (String × Shape) :=
  [("circular", .circular), ("rect_closed", .rectClosed), ("rect_open", .rectOpen), ("triangular", .triangular),
   ("trapezoidal", .trapezoidal), ("parabolic", .parabolic), ("elliptical", .elliptical), ("wide", .wide),
   ("force_main", .forceMain), ("floodplain", .floodplain)]

/-- `S` is the section named by a row of the link table. -/
inductive Names (ts : List Transect) (p : GP) : String → String → Section → Prop
  | regular {s : String} {sh : Shape} (t : String) (h : (s, sh) ∈ supported) : Names ts p s t (.regular sh p)
  | irregular {t : Transect} (h : t ∈ ts) : Names ts p "irregular" t.name
      (.irregular t.zs.length (fun i => t.zs.getD i 0) (fun i => t.As.getD i 0) (fun i => t.Bs.getD i 0)
        (fun i => t.Rs.getD i 0))

/-- A dictionary of transects: distinct names, columns of equal length (they are sampled at the same levels,
nsuperlink.py 353–363). -/
structure GoodTransects (ts : List Transect) : Prop where
  nodup : (ts.map Transect.name).Nodup
  As : ∀ t ∈ ts, t.As.length = t.zs.length
  Bs : ∀ t ∈ ts, t.Bs.length = t.zs.length
  Pes : ∀ t ∈ ts, t.Pes.length = t.zs.length
  Rs : ∀ t ∈ ts, t.Rs.length = t.zs.length

/-! ### Helpers -/

theorem lookup_append_zero (d : List (String × ℕ)) (k s : String) (h : d.lookup k = none) :
    ((d ++ [(k, 0)]).lookup s).getD 0 = (d.lookup s).getD 0 := by
  induction d with
  | nil =>
    simp only [List.nil_append, List.lookup]
    split <;> simp
  | cons a d ih =>
    simp only [List.cons_append, List.lookup] at h ⊢
    cases hk : (k == a.1) with
    | true => simp [hk] at h
    | false =>
      rw [hk] at h
      split
      · rfl
      · exact ih h

theorem setdefault_fst (d : List (String × ℕ)) (k : String) : (setdefault d k 0).1 = (d.lookup k).getD 0 := by
  unfold setdefault
  cases h : d.lookup k <;> simp

theorem setdefault_lookup (d : List (String × ℕ)) (k s : String) :
    ((setdefault d k 0).2.lookup s).getD 0 = (d.lookup s).getD 0 := by
  unfold setdefault
  split
  · rfl
  · exact lookup_append_zero d k s (by assumption)

theorem readNames_fst (d : List (String × ℕ)) (names : List String) :
    (readNames d names).1 = names.map fun s => (d.lookup s).getD 0 := by
  induction names generalizing d with
  | nil => rfl
  | cons s ss ih =>
    simp only [readNames, List.map_cons, setdefault_fst, ih, setdefault_lookup]

theorem readNames_lookup (d : List (String × ℕ)) (names : List String) (s : String) :
    ((readNames d names).2.lookup s).getD 0 = (d.lookup s).getD 0 := by
  induction names generalizing d with
  | nil => rfl
  | cons s ss ih => simp only [readNames, ih, setdefault_lookup]

theorem geomCodeAfter_lookup (models : List (List String)) (s : String) :
    ((geomCodeAfter models).lookup s).getD 0 = (geomCode.lookup s).getD 0 := by
  unfold geomCodeAfter
  generalize geomCode = d
  induction models generalizing d with
  | nil => rfl
  | cons m ms ih => rw [List.foldl_cons, ih, readNames_lookup]

theorem branch_lookup (s : String) : branch ((geomCode.lookup s).getD 0) = supported.lookup s := by
  simp only [geomCode, supported, List.lookup]
  repeat' split
  all_goals rfl

theorem lookup_supported {s : String} {sh : Shape} (h : (s, sh) ∈ supported) : supported.lookup s = some sh := by
  simp only [supported, List.mem_cons, Prod.mk.injEq, List.not_mem_nil, or_false] at h
  rcases h with h | h | h | h | h | h | h | h | h | h <;> obtain ⟨rfl, rfl⟩ := h <;> rfl

theorem lookup_unsupported {s : String} (h : ∀ sh, (s, sh) ∉ supported) : supported.lookup s = none := by
  rw [List.lookup_eq_none_iff]
  intro p hp
  have := h p.2
  simp only [bne_iff_ne, ne_eq]
  intro e
  exact this (by rw [e]; exact hp)

theorem irregular_unsupported (sh : Shape) : ("irregular", sh) ∉ supported := by
  simp [supported]

/-- The four values of one link. -/
def Arrays.at (a : Arrays) (i : ℕ) : ℝ × ℝ × ℝ × ℝ := (a.A i, a.Pe i, a.R i, a.B i)

theorem forRange_local (body : ℕ → Arrays → Arrays) (f : ℕ → ℝ × ℝ × ℝ × ℝ → ℝ × ℝ × ℝ × ℝ)
    (h : ∀ i a j, (body i a).at j = if j = i then f i (a.at i) else a.at j) (n : ℕ) (a : Arrays) (j : ℕ) :
    (forRange n body a).at j = if j < n then f j (a.at j) else a.at j := by
  induction n with
  | zero => simp
  | succ n ih =>
    rw [forRange_succ, h]
    by_cases e : j = n
    · subst e
      rw [if_pos rfl, if_pos (Nat.lt_succ_self j), ih, if_neg (Nat.lt_irrefl j)]
    · rw [if_neg e, ih]
      by_cases hl : j < n
      · rw [if_pos hl, if_pos (by omega)]
      · rw [if_neg hl, if_neg (by omega)]

/-- One round of the first loop seen from its own link. -/
noncomputable def regularAt (eps : ℝ) (codes : List ℕ) (g : ℕ → GP) (Ik : ℕ → ℕ) (h : ℕ → ℝ) (i : ℕ)
    (v : ℝ × ℝ × ℝ × ℝ) : ℝ × ℝ × ℝ × ℝ :=
  match branch (codes.getD i 0) with
  | none => v
  | some s => (area s (g i) (h (Ik i)) (h (Ik i + 1)), perimeter eps v.2.1 s (g i) (h (Ik i)) (h (Ik i + 1)),
      hydRadius (area s (g i) (h (Ik i)) (h (Ik i + 1))) (perimeter eps v.2.1 s (g i) (h (Ik i)) (h (Ik i + 1))),
      topWidth s (g i) (h (Ik i)) (h (Ik i + 1)))

theorem regularBody_at (eps : ℝ) (codes : List ℕ) (g : ℕ → GP) (Ik : ℕ → ℕ) (h : ℕ → ℝ) (i : ℕ) (a : Arrays)
    (j : ℕ) : (regularBody eps codes g Ik h i a).at j
      = if j = i then regularAt eps codes g Ik h i (a.at i) else a.at j := by
  unfold regularBody regularAt
  by_cases e : j = i
  · subst e; rw [if_pos rfl]
    cases branch (codes.getD j 0) <;> simp [Arrays.at]
  · rw [if_neg e]
    split
    · rfl
    · simp [Arrays.at, upd_other _ _ e]

/-- One round of the second loop seen from its own link. -/
noncomputable def irregularAt (ts : List Transect) (irr : List Bool) (tc : List ℕ) (Ik : ℕ → ℕ) (h : ℕ → ℝ) (i : ℕ)
    (v : ℝ × ℝ × ℝ × ℝ) : ℝ × ℝ × ℝ × ℝ :=
  if irr.getD i false then
    let y := (h (Ik i) + h (Ik i + 1)) / 2
    let c := tc.getD i 0
    (tableAt ts Transect.As c y, tableAt ts Transect.Pes c y, tableAt ts Transect.Rs c y, tableAt ts Transect.Bs c y)
  else v

theorem irregularBody_at (ts : List Transect) (irr : List Bool) (tc : List ℕ) (Ik : ℕ → ℕ) (h : ℕ → ℝ) (i : ℕ)
    (a : Arrays) (j : ℕ) : (irregularBody ts irr tc Ik h i a).at j
      = if j = i then irregularAt ts irr tc Ik h i (a.at i) else a.at j := by
  unfold irregularBody irregularAt
  by_cases e : j = i
  · subst e; rw [if_pos rfl]
    split <;> simp [Arrays.at]
  · rw [if_neg e]
    split
    · simp [Arrays.at, upd_other _ _ e]
    · rfl

theorem lookup_zipIdx (l : List String) (hn : l.Nodup) (k m : ℕ) (hk : k < l.length) :
    (l.zipIdx m).lookup l[k] = some (m + k) := by
  induction l generalizing k m with
  | nil => simp at hk
  | cons x l ih =>
    rw [List.nodup_cons] at hn
    cases k with
    | zero => simp
    | succ k =>
      have hk' : k < l.length := by simpa using hk
      have hne : (l[k] == x) = false := by
        rw [beq_eq_false_iff_ne]
        exact fun e => hn.1 (e ▸ List.getElem_mem hk')
      simp only [List.zipIdx_cons, List.getElem_cons_succ, List.lookup, hne]
      rw [ih hn.2 k (m + 1) hk']
      congr 1; omega

theorem storageSlice_id (tables : List (List ℝ)) (k : ℕ) (hk : k < tables.length) :
    storageSlice tables (List.range tables.length) k = tables[k] := by
  rw [C65_own_table_partial tables k hk]
  simp [ownTable, List.getD_eq_getElem?_getD, hk]

theorem tableAt_eq (ts : List Transect) (col : Transect → List ℝ) (k : ℕ) (hk : k < ts.length) (y : ℝ) :
    tableAt ts col k y = interpolate .linear ts[k].zs.length (fun i => ts[k].zs.getD i 0)
      (fun i => (col ts[k]).getD i 0) y := by
  have h1 := storageSlice_id (ts.map Transect.zs) k (by simpa using hk)
  have h2 := storageSlice_id (ts.map col) k (by simpa using hk)
  simp only [List.length_map, List.getElem_map] at h1 h2
  simp only [tableAt, h1, h2]

/-- The values of one link after a completed call. -/
theorem linkGeometry_at {eps : ℝ} {n : ℕ} {ts : List Transect} {c : Codes} {g : ℕ → GP} {Ik : ℕ → ℕ} {h : ℕ → ℝ}
    {a a' : Arrays} (hok : linkGeometry eps n ts c g Ik h a = .ok a') {i : ℕ} (hi : i < n) :
    (c.irregular.getD i false = false → a'.at i = regularAt eps c.geom g Ik h i ((ellipses n c.geom g Ik h a).at i)) ∧
    (c.irregular.getD i false = true → ∃ tc, c.tcodes = some tc ∧ ∀ v, a'.at i = irregularAt ts c.irregular tc Ik h i v) := by
  have h1 : (forRange n (regularBody eps c.geom g Ik h) (ellipses n c.geom g Ik h a)).at i
      = regularAt eps c.geom g Ik h i ((ellipses n c.geom g Ik h a).at i) := by
    rw [forRange_local _ _ (regularBody_at eps c.geom g Ik h), if_pos hi]
  unfold linkGeometry at hok
  by_cases hany : c.irregular.any id = true
  · rw [if_pos hany] at hok
    cases htc : c.tcodes with
    | none => rw [htc] at hok; simp at hok
    | some tc =>
      rw [htc] at hok
      simp only [Except.ok.injEq] at hok
      rw [← hok, forRange_local _ _ (irregularBody_at ts c.irregular tc Ik h), if_pos hi]
      refine ⟨fun hf => ?_, fun ht => ⟨tc, rfl, fun v => ?_⟩⟩
      · rw [irregularAt, hf, h1]; rfl
      · rw [irregularAt, irregularAt, ht]; rfl
  · rw [if_neg hany] at hok
    simp only [Except.ok.injEq] at hok
    rw [← hok]
    refine ⟨fun _ => h1, fun ht => absurd ?_ hany⟩
    rw [List.any_eq_true]
    refine ⟨true, ?_, rfl⟩
    rw [List.getD_eq_getElem?_getD] at ht
    cases hg : c.irregular[i]? with
    | none => rw [hg] at ht; simp at ht
    | some b =>
      rw [hg] at ht
      simp only [Option.getD_some] at ht
      subst ht
      exact List.mem_of_getElem? hg

/-- Codes of a constructed model. -/
theorem configure_geom (models : List (List String)) (ts : List Transect) (rows : Rows) (orf : List String) (i : ℕ)
    {s : String} (hs : rows.shapes[i]? = some s) :
    branch ((configure (geomCodeAfter models) ts rows orf).1.geom.getD i 0) = supported.lookup s ∧
    (configure (geomCodeAfter models) ts rows orf).1.irregular.getD i false = decide (s = "irregular") := by
  constructor
  · simp only [configure, readNames_fst, List.getD_eq_getElem?_getD, List.getElem?_map, hs, Option.map_some,
      Option.getD_some, geomCodeAfter_lookup, branch_lookup]
  · simp [configure, List.getD_eq_getElem?_getD, hs]

/-! ### C114 -/

/-- **C114 (what holds).** Whatever models were constructed before in the same process, and whatever the other
rows of the table say: after every completed call the arrays hold for every link whose row names a section
the area, top width and hydraulic radius of the named section at the depths of its ends. -/
theorem C114_named_section_partial (eps : ℝ) (models : List (List String)) (ts : List Transect) (hts : GoodTransects ts)
    (rows : Rows) (orf : List String) (g : ℕ → GP) (Ik : ℕ → ℕ) (h : ℕ → ℝ) (a a' : Arrays)
    (hok : linkGeometry eps rows.shapes.length ts (configure (geomCodeAfter models) ts rows orf).1 g Ik h a = .ok a')
    (i : ℕ) (s t : String) (hs : rows.shapes[i]? = some s) (ht : rows.transects[i]? = some t)
    (S : Section) (hS : Names ts (g i) s t S) :
    a'.A i = S.A (h (Ik i)) (h (Ik i + 1)) ∧ a'.B i = S.B (h (Ik i)) (h (Ik i + 1)) ∧
    a'.R i = S.R eps ellOf (h (Ik i)) (h (Ik i + 1)) := by
  have hi : i < rows.shapes.length := (List.getElem?_eq_some_iff.mp hs).1
  obtain ⟨hg, hir⟩ := configure_geom models ts rows orf i hs
  obtain ⟨l1, l2⟩ := linkGeometry_at hok hi
  cases hS with
  | @regular _ sh _ hm =>
    rw [lookup_supported hm] at hg
    have hne : s ≠ "irregular" := fun e => irregular_unsupported sh (e ▸ hm)
    have h1 := l1 (by rw [hir]; simp [hne])
    simp only [regularAt, hg, Arrays.at, Prod.mk.injEq] at h1
    obtain ⟨e1, -, e3, e4⟩ := h1
    refine ⟨e1, e4, e3.trans ?_⟩
    show hydRadius _ _ = hydRadius _ _
    congr 1
    cases sh <;> first | rfl | skip
    have hc : (configure (geomCodeAfter models) ts rows orf).1.geom.getD i 0 = 7 := by
      revert hg
      generalize (configure (geomCodeAfter models) ts rows orf).1.geom.getD i 0 = c
      unfold branch
      split <;> simp
    show (if _ then _ else _) = _
    rw [if_pos ⟨hi, hc⟩]
    rfl
  | @irregular T hT =>
    obtain ⟨tc, htc, hv⟩ := l2 (by rw [hir]; simp)
    have hv := hv (a.at i)
    obtain ⟨k, hk, rfl⟩ := List.getElem_of_mem hT
    have hne : ts ≠ [] := List.ne_nil_of_mem hT
    have hcode : tc.getD i 0 = k := by
      simp only [configure, if_neg hne, Option.some.injEq] at htc
      rw [← htc, readNames_fst]
      have := lookup_zipIdx (ts.map Transect.name) hts.nodup k 0 (by simpa using hk)
      simp only [List.getElem_map, Nat.zero_add] at this
      simp only [List.getD_eq_getElem?_getD, List.getElem?_map, ht, Option.map_some, Option.getD_some, nameToInd, this]
    simp only [irregularAt, hir, decide_true, if_true, hcode, Arrays.at, Prod.mk.injEq, tableAt_eq ts _ k hk] at hv
    exact ⟨hv.1, hv.2.2.2, hv.2.2.1⟩

/-- **C114, the call itself.** It raises exactly if some row names an irregular section and the model was given no
transects. -/
theorem C114_raises_iff (eps : ℝ) (models : List (List String)) (ts : List Transect) (rows : Rows)
    (orf : List String) (g : ℕ → GP) (Ik : ℕ → ℕ) (h : ℕ → ℝ) (a : Arrays) :
    linkGeometry eps rows.shapes.length ts (configure (geomCodeAfter models) ts rows orf).1 g Ik h a
      = .error .typeError ↔ "irregular" ∈ rows.shapes ∧ ts = [] := by
  have hany : (configure (geomCodeAfter models) ts rows orf).1.irregular.any id = true
      ↔ "irregular" ∈ rows.shapes := by
    simp only [configure, List.any_map, List.any_eq_true, Function.comp_apply, id, decide_eq_true_eq]
    constructor
    · rintro ⟨s, hs, rfl⟩; exact hs
    · exact fun h => ⟨_, h, rfl⟩
  unfold linkGeometry
  by_cases h1 : "irregular" ∈ rows.shapes
  · rw [if_pos (hany.mpr h1)]
    by_cases h2 : ts = []
    · have e : (configure (geomCodeAfter models) ts rows orf).1.tcodes = none := by simp [configure, h2]
      rw [e]; simp [h1, h2]
    · have e : (configure (geomCodeAfter models) ts rows orf).1.tcodes
          = some (readNames (nameToInd ts) rows.transects).1 := by simp [configure, h2]
      rw [e]; simp [h2]
  · rw [if_neg (fun e => h1 (hany.mp e))]; simp [h1]

/-- **C114, unknown shapes are not noticed.** A row whose shape is none of the supported names does not stop the
model: however many passes are made, with any depths, its link keeps the area, perimeter, radius and width
0 with which the arrays were created, unless the call fails for another row. -/
theorem C114_unknown_shape (eps : ℝ) (models : List (List String)) (ts : List Transect) (rows : Rows)
    (orf : List String) (g : ℕ → GP) (Ik : ℕ → ℕ) (i : ℕ) (s : String) (hs : rows.shapes[i]? = some s)
    (hu : ∀ sh, (s, sh) ∉ supported) (hirr : s ≠ "irregular") (hs' : "irregular" ∈ rows.shapes → ts ≠ [])
    (hist : List (ℕ → ℝ)) :
    ∃ a', passes eps rows.shapes.length ts (configure (geomCodeAfter models) ts rows orf).1 g Ik hist Arrays.zeros
      = .ok a' ∧ a'.A i = 0 ∧ a'.Pe i = 0 ∧ a'.R i = 0 ∧ a'.B i = 0 := by
  have hi : i < rows.shapes.length := (List.getElem?_eq_some_iff.mp hs).1
  obtain ⟨hg, hir⟩ := configure_geom models ts rows orf i hs
  rw [lookup_unsupported hu] at hg
  suffices H : ∀ a : Arrays, ∃ a', passes eps rows.shapes.length ts (configure (geomCodeAfter models) ts rows orf).1
      g Ik hist a = .ok a' ∧ a'.at i = a.at i by
    obtain ⟨a', h1, h2⟩ := H Arrays.zeros
    simp only [Arrays.at, Arrays.zeros, Prod.mk.injEq] at h2
    exact ⟨a', h1, h2⟩
  induction hist with
  | nil => exact fun a => ⟨a, rfl, rfl⟩
  | cons h hist ih =>
    intro a
    cases hl : linkGeometry eps rows.shapes.length ts (configure (geomCodeAfter models) ts rows orf).1 g Ik h a with
    | error e =>
      cases e
      obtain ⟨e1, e2⟩ := (C114_raises_iff eps models ts rows orf g Ik h a).mp hl
      exact absurd e2 (hs' e1)
    | ok b =>
      obtain ⟨a', h1, h2⟩ := ih b
      refine ⟨a', by rw [passes, hl]; exact h1, h2.trans ?_⟩
      have h3 := (linkGeometry_at hl hi).1 (by rw [hir]; simp [hirr])
      rw [h3, regularAt, hg]
      have hc : (configure (geomCodeAfter models) ts rows orf).1.geom.getD i 0 ≠ 7 := by
        intro e; rw [e] at hg; simp [branch] at hg
      simp only [Arrays.at, ellipses]
      rw [if_neg (fun e => hc e.2)]

/-- **C114, unknown transects are not noticed.** A row naming a transect which was not given gets the first one. -/
theorem C114_unknown_transect (eps : ℝ) (models : List (List String)) (ts : List Transect) (rows : Rows)
    (orf : List String) (g : ℕ → GP) (Ik : ℕ → ℕ) (h : ℕ → ℝ) (a : Arrays) (i : ℕ) (t : String)
    (hs : rows.shapes[i]? = some "irregular") (ht : rows.transects[i]? = some t) (hu : ∀ T ∈ ts, T.name ≠ t)
    (T : Transect) (rest : List Transect) (hts : ts = T :: rest) :
    ∃ a', linkGeometry eps rows.shapes.length ts (configure (geomCodeAfter models) ts rows orf).1 g Ik h a = .ok a' ∧
      a'.A i = interpolate .linear T.zs.length (fun i => T.zs.getD i 0) (fun i => T.As.getD i 0)
        ((h (Ik i) + h (Ik i + 1)) / 2) := by
  have hi : i < rows.shapes.length := (List.getElem?_eq_some_iff.mp hs).1
  have hne : ts ≠ [] := by rw [hts]; simp
  obtain ⟨-, hir⟩ := configure_geom models ts rows orf i hs
  cases hl : linkGeometry eps rows.shapes.length ts (configure (geomCodeAfter models) ts rows orf).1 g Ik h a with
  | error e =>
    cases e
    exact absurd ((C114_raises_iff eps models ts rows orf g Ik h a).mp hl).2 hne
  | ok a' =>
    refine ⟨a', rfl, ?_⟩
    obtain ⟨tc, htc, hv⟩ := (linkGeometry_at hl hi).2 (by rw [hir]; simp)
    have hv := hv (a.at i)
    have hlook : (nameToInd ts).lookup t = none := by
      rw [List.lookup_eq_none_iff]
      rintro ⟨x, k⟩ hp
      have hx := List.fst_mem_of_mem_zipIdx hp
      obtain ⟨T', hT', rfl⟩ := List.mem_map.mp hx
      simp only [bne_iff_ne, ne_eq]
      exact fun e => hu T' hT' e.symm
    have hcode : tc.getD i 0 = 0 := by
      simp only [configure, if_neg hne, Option.some.injEq] at htc
      rw [← htc, readNames_fst]
      simp only [List.getD_eq_getElem?_getD, List.getElem?_map, ht, Option.map_some, Option.getD_some, hlook,
        Option.getD_none]
    have h0 : 0 < ts.length := by rw [hts]; simp
    simp only [irregularAt, hir, decide_true, if_true, hcode, Arrays.at, Prod.mk.injEq, tableAt_eq ts _ 0 h0] at hv
    rw [hv.1]
    subst hts
    rfl

/-- **C114, earlier models do not matter.** Every construction adds the unknown names it meets to the shared
dictionary of shapes; no later model sees the difference. -/
theorem C114_earlier_models (models : List (List String)) (ts : List Transect) (rows : Rows) (orf : List String) :
    (configure (geomCodeAfter models) ts rows orf).1 = (configure geomCode ts rows orf).1 ∧
    (configure (geomCodeAfter models) ts rows orf).2.1 = (configure geomCode ts rows orf).2.1 := by
  constructor
  · simp only [configure, readNames_fst, geomCodeAfter_lookup]
  · simp only [configure, readNames_fst, readNames_lookup, geomCodeAfter_lookup]

theorem lookup_snoc (d : List (String × ℕ)) (k s : String) (v : ℕ) (h : d.lookup k = none) :
    (d ++ [(k, v)]).lookup s = if s = k then some v else d.lookup s := by
  rw [List.lookup_append]
  split_ifs with e
  · rw [e, h]; simp
  · have : List.lookup s [(k, v)] = none := by
      rw [List.lookup_eq_none_iff]; intro p hp
      rw [List.mem_singleton] at hp; subst hp
      simpa using e
    rw [this]; simp

theorem readNames_dict (d : List (String × ℕ)) (names : List String) (s : String) :
    (readNames d names).2.lookup s = if s ∈ names then some ((d.lookup s).getD 0) else d.lookup s := by
  induction names generalizing d with
  | nil => simp [readNames]
  | cons k ss ih =>
    simp only [readNames, ih, setdefault_lookup, List.mem_cons]
    by_cases hm : s ∈ ss
    · simp [hm]
    · simp only [hm, if_false, or_false]
      unfold setdefault
      split
      · rename_i c hc
        split_ifs with e
        · rw [e, hc]; rfl
        · rfl
      · rename_i hc
        rw [lookup_snoc _ _ _ _ hc]
        split_ifs with e
        · rw [e, hc]; rfl
        · rfl

/-- **C114, the shared dictionary.** A construction enters every name it meets, misspelled or not: afterwards a
name has a code exactly if it had one before or occurs in the rows, and no code changes. -/
theorem C114_dictionary (models : List (List String)) (s : String) (c : ℕ) :
    (geomCodeAfter models).lookup s = some c ↔
      geomCode.lookup s = some c ∨ (geomCode.lookup s = none ∧ c = 0 ∧ ∃ names ∈ models, s ∈ names) := by
  unfold geomCodeAfter
  generalize geomCode = d
  induction models generalizing d with
  | nil => simp
  | cons m ms ih =>
    rw [List.foldl_cons, ih, readNames_dict]
    by_cases hm : s ∈ m
    · cases h : d.lookup s with
      | none => simp [hm, eq_comm]
      | some c' => simp [hm]
    · simp [hm]

/-- A misspelled pipe half full of water has no area, next to a correct one of area 2. -/
example : ∃ a', linkGeometry 0 2 [] (configure (geomCodeAfter [["oval"]]) [] ⟨["circle", "rect_closed"], ["", ""]⟩ []).1
      (fun _ => ⟨2, 2, 0, 0, 0, 0, 0⟩) (fun i => 2 * i) (fun _ => 1) Arrays.zeros = .ok a' ∧ a'.A 0 = 0 ∧ a'.A 1 = 2 := by
  obtain ⟨a', h1, h2, -⟩ := C114_unknown_shape 0 [["oval"]] [] ⟨["circle", "rect_closed"], ["", ""]⟩ []
    (fun _ => ⟨2, 2, 0, 0, 0, 0, 0⟩) (fun i => 2 * i) 0 "circle" rfl (by simp [supported]) (by decide)
    (by simp) [fun _ => 1]
  have h3 : linkGeometry 0 2 [] (configure (geomCodeAfter [["oval"]]) [] ⟨["circle", "rect_closed"], ["", ""]⟩ []).1
      (fun _ => ⟨2, 2, 0, 0, 0, 0, 0⟩) (fun i => 2 * i) (fun _ => 1) Arrays.zeros = .ok a' := by
    revert h1
    simp only [passes, List.length_cons, List.length_nil, Nat.reduceAdd, Nat.zero_add]
    split
    · rename_i b e; intro h; rw [e]; exact h
    · intro h; cases h
  refine ⟨a', h3, h2, ?_⟩
  have h4 := (C114_named_section_partial 0 [["oval"]] [] ⟨by simp, by simp, by simp, by simp, by simp⟩
    ⟨["circle", "rect_closed"], ["", ""]⟩ [] _ _ _ _ a' h3 1 "rect_closed" "" rfl rfl _
    (.regular (sh := .rectClosed) "" (by simp [supported]))).1
  rw [h4]
  simp only [Section.A, area, rectA, depth, wet]
  norm_num

end Pipedream.Config
