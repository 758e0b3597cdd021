import Verif.BaseDispatchModel
import Verif.InfiltrationArrayLemmas
import Verif.GeometryBaseProps

/-!
# C208: without numba every section is computed by its own formulas

Without numba the exported class is the pure-Python one.  It cannot be built at all: the section names are kept as a numpy
array and later used as a pandas series.  With that one attribute repaired (the names kept as a series), the grouping of
the links is right: every link gets the value of its own section, in whatever order the set of names is iterated — except that
surveyed sections need every transect on the first and on the last link of some superlink.
-/

namespace Pipedream.Base

open Pipedream.Geometry Pipedream.Config Pipedream.Infiltration

/-- **C208 fails.** Whatever the network, the constructor of the pure-Python class raises `AttributeError`. -/
theorem C208_cannot_be_built (d : List (String × ℕ)) (order shape : List String) (tr : Option (List String)) :
    configureBase d order (shapeColumn shape) tr = .error .attribute := rfl

/-- The order of a set of names: every name but `irregular` once. -/
structure Enumerates (order v : List String) : Prop where
  nodup : order.Nodup
  mem : ∀ g, g ∈ order ↔ g ∈ v ∧ g ≠ "irregular"

/-- **C208 (repaired).** With the names kept as a series, the groups are made exactly if all names are known to `geom_code` and
irregular links come with transects. -/
theorem C208_configure_iff {d : List (String × ℕ)} {order shape : List String} {tr : Option (List String)}
    (en : Enumerates order (shape.map String.toLower)) (q : Groups) :
    configureBase d order (.series shape) tr = .ok q ↔
      ("irregular" ∈ shape.map String.toLower → tr ≠ none) ∧
      (∀ g ∈ shape.map String.toLower, g ≠ "irregular" → ∃ c, d.lookup g = some c) ∧
      q = ⟨shape.map String.toLower, order.map fun g => (g, groupOf (shape.map String.toLower) g)⟩ := by
  unfold configureBase Column.strLower
  simp only [bind, Except.bind, pure, Except.pure]
  generalize shape.map String.toLower = v at en ⊢
  by_cases h1 : "irregular" ∈ v ∧ tr = none
  · rw [if_pos h1]
    exact ⟨fun h => (by cases h), fun h => absurd h1.2 (h.1 h1.1)⟩
  · rw [if_neg h1]
    by_cases h2 : (order.any fun g => (d.lookup g).isNone) = true
    · simp only [h2, if_true]
      refine ⟨fun h => (by cases h), fun h => ?_⟩
      obtain ⟨g, hg, hn⟩ := List.any_eq_true.mp h2
      obtain ⟨c, hc⟩ := h.2.1 g ((en.mem g).mp hg).1 ((en.mem g).mp hg).2
      rw [hc] at hn; simp at hn
    · simp only [h2]
      refine ⟨fun h => ⟨fun a b => h1 ⟨a, b⟩, fun g hg hne => ?_, (Except.ok.inj h).symm⟩, fun h => by rw [h.2.2]; rfl⟩
      cases hc : d.lookup g with
      | some c => exact ⟨c, rfl⟩
      | none => exact absurd (List.any_eq_true.mpr ⟨g, (en.mem g).mpr ⟨hg, hne⟩, by rw [hc]; rfl⟩) h2

variable {V : Type}

/-- Computing on the selected links is computing on all and selecting. -/
def Rowwise (comp : Shape → List ℕ → Except BErr (ℕ → V)) (val : Shape → ℕ → V) : Prop :=
  ∀ s l, (s = .floodplain ∧ comp s l = .error .notImplemented) ∨ (s ≠ .floodplain ∧ comp s l = .ok (sel (val s) l))

theorem mem_groupOf {v : List String} {g : String} {i : ℕ} : i ∈ groupOf v g ↔ i < v.length ∧ v.getD i "" = g := by
  unfold groupOf
  rw [mem_flat]; simp

/-- Writing the values of some links to their places. -/
theorem put_tgt {tgt : ℕ → ℕ} {l : List ℕ} {mask : ℕ → Prop} (inj : ∀ i j, mask i → mask j → tgt i = tgt j → i = j)
    (hl : ∀ i ∈ l, mask i) (nd : l.Nodup) (a : ℕ → V) (f : ℕ → V) :
    (∀ i ∈ l, put a (l.map tgt) (sel f l) (tgt i) = f i) ∧ ∀ j, j ∉ l.map tgt → put a (l.map tgt) (sel f l) j = a j := by
  refine ⟨fun i hi => ?_, fun j hj => put_off _ _ hj⟩
  obtain ⟨q, hq, rfl⟩ := exists_getD hi
  have nd' : (l.map tgt).Nodup := nd.map_on fun x hx y hy e => inj x y (hl x hx) (hl y hy) e
  have e : (l.map tgt).getD q 0 = tgt (l.getD q 0) := by
    simp only [List.getD_eq_getElem?_getD, List.getElem?_map, List.getElem?_eq_getElem hq, Option.map_some, Option.getD_some]
  rw [← e, put_at a nd' (sel f l) (by rwa [List.length_map])]
  rfl

/-- The loop over the groups. -/
theorem regularLoop_spec {comp : Shape → List ℕ → Except BErr (ℕ → V)} {val : Shape → ℕ → V} (rw_ : Rowwise comp val)
    {mask : ℕ → Bool} {tgt : ℕ → ℕ} {v : List String} (inj : ∀ i j, mask i = true → mask j = true → tgt i = tgt j → i = j)
    (order : List String) (cl : String → Shape) (known : ∀ g ∈ order, classNamed g = .ok (cl g)) (nd : order.Nodup) (a : ℕ → V) :
    ((∃ g ∈ order, cl g = .floodplain) →
      regularLoop comp mask tgt (order.map fun g => (g, groupOf v g)) a = .error .notImplemented) ∧
    ((∀ g ∈ order, cl g ≠ .floodplain) → ∃ b,
      regularLoop comp mask tgt (order.map fun g => (g, groupOf v g)) a = .ok b ∧
      (∀ i, i < v.length → mask i = true → v.getD i "" ∈ order → b (tgt i) = val (cl (v.getD i "")) i) ∧
      ∀ j, (∀ i, i < v.length → mask i = true → v.getD i "" ∈ order → tgt i ≠ j) → b j = a j) := by
  induction order generalizing a with
  | nil =>
    refine ⟨fun ⟨g, hg, _⟩ => by simp at hg, fun _ => ⟨a, rfl, fun i _ _ h => by simp at h, fun _ _ => rfl⟩⟩
  | cons g rest ih =>
    obtain ⟨hg, nd'⟩ := List.nodup_cons.mp nd
    have kg := known g List.mem_cons_self
    have ih' := fun a => ih (fun g hg => known g (List.mem_cons_of_mem _ hg)) nd' a
    have step : regularLoop comp mask tgt ((g :: rest).map fun g => (g, groupOf v g)) a =
        comp (cl g) ((groupOf v g).filter mask) >>= fun w =>
          regularLoop comp mask tgt (rest.map fun g => (g, groupOf v g)) (put a (((groupOf v g).filter mask).map tgt) w) := by
      simp only [List.map_cons, regularLoop, kg]; rfl
    rw [step]
    rcases rw_ (cl g) ((groupOf v g).filter mask) with ⟨hf, hc⟩ | ⟨hf, hc⟩
    · rw [hc]
      exact ⟨fun _ => rfl, fun h => absurd hf (h g List.mem_cons_self)⟩
    · rw [hc]
      simp only [bind, Except.bind]
      have hl : ∀ i ∈ (groupOf v g).filter mask, mask i = true := fun i hi => (List.mem_filter.mp hi).2
      have ndl : ((groupOf v g).filter mask).Nodup := (nodup_flat _ _).filter _
      obtain ⟨p1, p2⟩ := put_tgt (mask := fun i => mask i = true) inj hl ndl a (val (cl g))
      obtain ⟨bad, good⟩ := ih' (put a (((groupOf v g).filter mask).map tgt) (sel (val (cl g)) ((groupOf v g).filter mask)))
      refine ⟨fun ⟨g', hg', hf'⟩ => ?_, fun h => ?_⟩
      · rcases List.mem_cons.mp hg' with rfl | h'
        · exact absurd hf' hf
        · exact bad ⟨g', h', hf'⟩
      · obtain ⟨b, hb, b1, b2⟩ := good fun g hg => h g (List.mem_cons_of_mem _ hg)
        refine ⟨b, hb, fun i hi hm hv => ?_, fun j hj => ?_⟩
        · rcases List.mem_cons.mp hv with e | e
          · rw [b2 (tgt i) fun i' hi' hm' hv' et => ?_]
            · rw [p1 i (List.mem_filter.mpr ⟨mem_groupOf.mpr ⟨hi, e⟩, hm⟩), e]
            · have := inj i' i hm' hm et
              subst this
              exact hg (e ▸ hv')
          · exact b1 i hi hm e
        · rw [b2 j fun i hi hm hv => hj i hi hm (List.mem_cons_of_mem _ hv)]
          refine p2 j fun hmem => ?_
          obtain ⟨i, hi, rfl⟩ := List.mem_map.mp hmem
          obtain ⟨h1, h2⟩ := List.mem_filter.mp hi
          obtain ⟨h3, h4⟩ := mem_groupOf.mp h1
          exact hj i h3 h2 (h4 ▸ List.mem_cons_self) rfl

theorem mem_irregularRows {v : List String} {mask : ℕ → Bool} {i : ℕ} :
    i ∈ irregularRows v mask ↔ i < v.length ∧ v.getD i "" = "irregular" ∧ mask i = true := by
  unfold irregularRows
  rw [List.mem_filter, mem_groupOf, and_assoc]

/-- The loop over the transects. -/
theorem transectLoop_spec {tcomp : String → ℕ → V} {mask : ℕ → Bool} {tgt : ℕ → ℕ} {v tr : List String}
    (inj : ∀ i j, mask i = true → mask j = true → tgt i = tgt j → i = j) (keys : List String) (nd : keys.Nodup) (a : ℕ → V) :
    ((∃ nm ∈ keys, ∀ i ∈ irregularRows v mask, tr.getD i "" ≠ nm) → transectLoop tcomp v tr mask tgt keys a = .error .key) ∧
    ((∀ nm ∈ keys, ∃ i ∈ irregularRows v mask, tr.getD i "" = nm) → ∃ b, transectLoop tcomp v tr mask tgt keys a = .ok b ∧
      (∀ i ∈ irregularRows v mask, tr.getD i "" ∈ keys → b (tgt i) = tcomp (tr.getD i "") i) ∧
      ∀ j, (∀ i ∈ irregularRows v mask, tr.getD i "" ∈ keys → tgt i ≠ j) → b j = a j) := by
  induction keys generalizing a with
  | nil =>
    exact ⟨fun ⟨g, hg, _⟩ => by simp at hg, fun _ => ⟨a, rfl, fun i _ h => by simp at h, fun _ _ => rfl⟩⟩
  | cons nm rest ih =>
    obtain ⟨hnm, nd'⟩ := List.nodup_cons.mp nd
    set l := (irregularRows v mask).filter fun i => decide (tr.getD i "" = nm) with hl
    have ml : ∀ i, i ∈ l ↔ i ∈ irregularRows v mask ∧ tr.getD i "" = nm := fun i => by rw [hl, List.mem_filter]; simp
    have step : transectLoop tcomp v tr mask tgt (nm :: rest) a =
        if l = [] then .error .key else transectLoop tcomp v tr mask tgt rest (put a (l.map tgt) (sel (tcomp nm) l)) := rfl
    rw [step]
    by_cases he : l = []
    · rw [if_pos he]
      refine ⟨fun _ => rfl, fun h => ?_⟩
      obtain ⟨i, hi, e⟩ := h nm List.mem_cons_self
      have := (ml i).mpr ⟨hi, e⟩
      rw [he] at this; simp at this
    · rw [if_neg he]
      have hm : ∀ i ∈ l, mask i = true := fun i hi => (mem_irregularRows.mp ((ml i).mp hi).1).2.2
      have ndl : l.Nodup := by
        rw [hl]; exact ((((nodup_flat _ _).filter _)).filter _)
      obtain ⟨p1, p2⟩ := put_tgt (mask := fun i => mask i = true) inj hm ndl a (tcomp nm)
      obtain ⟨bad, good⟩ := ih nd' (put a (l.map tgt) (sel (tcomp nm) l))
      refine ⟨fun ⟨nm', h', hno⟩ => ?_, fun h => ?_⟩
      · rcases List.mem_cons.mp h' with rfl | h'
        · exact absurd (List.eq_nil_iff_forall_not_mem.mpr fun i hi => hno i ((ml i).mp hi).1 ((ml i).mp hi).2) he
        · exact bad ⟨nm', h', hno⟩
      · obtain ⟨b, hb, b1, b2⟩ := good fun g hg => h g (List.mem_cons_of_mem _ hg)
        refine ⟨b, hb, fun i hi hv => ?_, fun j hj => ?_⟩
        · rcases List.mem_cons.mp hv with e | e
          · rw [b2 (tgt i) fun i' hi' hv' et => ?_]
            · rw [p1 i ((ml i).mpr ⟨hi, e⟩), e]
            · have := inj i' i (mem_irregularRows.mp hi').2.2 (mem_irregularRows.mp hi).2.2 et
              subst this
              exact hnm (e ▸ hv')
          · exact b1 i hi e
        · rw [b2 j fun i hi hv => hj i hi (List.mem_cons_of_mem _ hv)]
          refine p2 j fun hmem => ?_
          obtain ⟨i, hi, rfl⟩ := List.mem_map.mp hmem
          exact hj i ((ml i).mp hi).1 (((ml i).mp hi).2 ▸ List.mem_cons_self) rfl

/-- A network as the repaired class sees it: section names known, one entry per key. -/
structure Known (order v keys : List String) (cl : String → Shape) : Prop where
  enum : Enumerates order v
  cls : ∀ g ∈ order, classNamed g = .ok (cl g)
  keysNodup : keys.Nodup

/-- **C208 (values).** Every selected link has the value of its own section or transect, in whatever order the names were taken,
and nothing else is touched — an irregular link whose transect is not in the dictionary keeps what was there. -/
theorem C208_values {comp : Shape → List ℕ → Except BErr (ℕ → V)} {val : Shape → ℕ → V} (rw_ : Rowwise comp val)
    {tcomp : String → ℕ → V} {mask : ℕ → Bool} {tgt : ℕ → ℕ} {order v tr keys : List String} {cl : String → Shape}
    (inj : ∀ i j, mask i = true → mask j = true → tgt i = tgt j → i = j) (kn : Known order v keys cl) (a : ℕ → V) {b : ℕ → V}
    (h : geometryBase comp tcomp ⟨v, order.map fun g => (g, groupOf v g)⟩ tr keys mask tgt a = .ok b) :
    (∀ i, i < v.length → mask i = true → b (tgt i) =
      if v.getD i "" = "irregular" then (if tr.getD i "" ∈ keys then tcomp (tr.getD i "") i else a (tgt i))
      else val (cl (v.getD i "")) i) ∧
    ∀ j, (∀ i, i < v.length → mask i = true → tgt i ≠ j) → b j = a j := by
  obtain ⟨rb, rg⟩ := regularLoop_spec rw_ (v := v) inj order cl kn.cls kn.enum.nodup a
  unfold geometryBase at h
  simp only [bind, Except.bind] at h
  by_cases hf : ∃ g ∈ order, cl g = .floodplain
  · rw [rb hf] at h; cases h
  · obtain ⟨c, hc, c1, c2⟩ := rg fun g hg e => hf ⟨g, hg, e⟩
    rw [hc] at h
    have inO : ∀ i, i < v.length → v.getD i "" ≠ "irregular" → v.getD i "" ∈ order := fun i hi hne => by
      refine (kn.enum.mem _).mpr ⟨?_, hne⟩
      rw [List.getD_eq_getElem?_getD, List.getElem?_eq_getElem hi]; exact List.getElem_mem hi
    have notO : "irregular" ∉ order := fun h => ((kn.enum.mem _).mp h).2 rfl
    by_cases he : irregularRows v mask = []
    · simp only [he, if_true, pure, Except.pure, Except.ok.injEq] at h
      subst h
      refine ⟨fun i hi hm => ?_, fun j hj => c2 j fun i hi hm _ => hj i hi hm⟩
      by_cases e : v.getD i "" = "irregular"
      · have := mem_irregularRows.mpr ⟨hi, e, hm⟩
        rw [he] at this; simp at this
      · rw [if_neg e]; exact c1 i hi hm (inO i hi e)
    · simp only [he, if_false] at h
      obtain ⟨tb, tg⟩ := transectLoop_spec (tcomp := tcomp) (v := v) (tr := tr) inj keys kn.keysNodup c
      by_cases hk : ∀ nm ∈ keys, ∃ i ∈ irregularRows v mask, tr.getD i "" = nm
      · obtain ⟨b', hb', b1, b2⟩ := tg hk
        rw [hb'] at h
        cases h
        refine ⟨fun i hi hm => ?_, fun j hj => ?_⟩
        · by_cases e : v.getD i "" = "irregular"
          · rw [if_pos e]
            have hi' := mem_irregularRows.mpr ⟨hi, e, hm⟩
            by_cases ek : tr.getD i "" ∈ keys
            · rw [if_pos ek, b1 i hi' ek]
            · rw [if_neg ek, b2 (tgt i) fun i' hi'' hk' et => ?_, c2 (tgt i) fun i' hi'' hm' ho et => ?_]
              · have := inj i' i hm' hm et; subst this
                exact notO (e ▸ ho)
              · have := inj i' i (mem_irregularRows.mp hi'').2.2 hm et; subst this
                exact ek hk'
          · rw [if_neg e, b2 (tgt i) fun i' hi'' _ et => ?_]
            · exact c1 i hi hm (inO i hi e)
            · obtain ⟨_, q2, q3⟩ := mem_irregularRows.mp hi''
              have := inj i' i q3 hm et; subst this
              exact e q2
        · rw [b2 j fun i hi _ => hj i (mem_irregularRows.mp hi).1 (mem_irregularRows.mp hi).2.2,
            c2 j fun i hi hm _ => hj i hi hm]
      · push Not at hk
        rw [tb hk] at h; cases h

/-- **C208 (exactly when).** The methods return exactly if no link is a floodplain and either no selected link is irregular or
every transect of the dictionary belongs to a selected link. -/
theorem C208_returns_iff {comp : Shape → List ℕ → Except BErr (ℕ → V)} {val : Shape → ℕ → V} (rw_ : Rowwise comp val)
    {tcomp : String → ℕ → V} {mask : ℕ → Bool} {tgt : ℕ → ℕ} {order v tr keys : List String} {cl : String → Shape}
    (inj : ∀ i j, mask i = true → mask j = true → tgt i = tgt j → i = j) (kn : Known order v keys cl) (a : ℕ → V) :
    (∃ b, geometryBase comp tcomp ⟨v, order.map fun g => (g, groupOf v g)⟩ tr keys mask tgt a = .ok b) ↔
      (∀ g ∈ order, cl g ≠ .floodplain) ∧
      (irregularRows v mask = [] ∨ ∀ nm ∈ keys, ∃ i ∈ irregularRows v mask, tr.getD i "" = nm) := by
  obtain ⟨rb, rg⟩ := regularLoop_spec rw_ (v := v) inj order cl kn.cls kn.enum.nodup a
  unfold geometryBase
  simp only [bind, Except.bind]
  by_cases hf : ∃ g ∈ order, cl g = .floodplain
  · rw [rb hf]
    refine ⟨fun ⟨b, hb⟩ => (by cases hb), fun ⟨h, _⟩ => ?_⟩
    obtain ⟨g, hg, e⟩ := hf
    exact absurd e (h g hg)
  · have hf' : ∀ g ∈ order, cl g ≠ .floodplain := fun g hg e => hf ⟨g, hg, e⟩
    obtain ⟨c, hc, -, -⟩ := rg hf'
    rw [hc]
    obtain ⟨tb, tg⟩ := transectLoop_spec (tcomp := tcomp) (v := v) (tr := tr) inj keys kn.keysNodup c
    by_cases he : irregularRows v mask = []
    · simp only [he, if_true]
      exact ⟨fun _ => ⟨hf', .inl trivial⟩, fun _ => ⟨_, rfl⟩⟩
    · simp only [he, if_false, false_or]
      by_cases hk : ∀ nm ∈ keys, ∃ i ∈ irregularRows v mask, tr.getD i "" = nm
      · obtain ⟨b, hb, -⟩ := tg hk
        exact ⟨fun _ => ⟨hf', hk⟩, fun _ => ⟨b, hb⟩⟩
      · have hk' := hk
        push Not at hk'
        rw [tb hk']
        exact ⟨fun ⟨b, hb⟩ => (by cases hb), fun h => absurd h.2 hk⟩

/-- **C208 (order).** The order in which Python iterates the set of names does not matter for the selected links. -/
theorem C208_order {comp : Shape → List ℕ → Except BErr (ℕ → V)} {val : Shape → ℕ → V} (rw_ : Rowwise comp val)
    {tcomp : String → ℕ → V} {mask : ℕ → Bool} {tgt : ℕ → ℕ} {order order' v tr keys : List String} {cl : String → Shape}
    (inj : ∀ i j, mask i = true → mask j = true → tgt i = tgt j → i = j) (kn : Known order v keys cl)
    (kn' : Known order' v keys cl) (a : ℕ → V) {b : ℕ → V}
    (h : geometryBase comp tcomp ⟨v, order.map fun g => (g, groupOf v g)⟩ tr keys mask tgt a = .ok b) :
    geometryBase comp tcomp ⟨v, order'.map fun g => (g, groupOf v g)⟩ tr keys mask tgt a = .ok b := by
  obtain ⟨r1, r2⟩ := (C208_returns_iff rw_ (tcomp := tcomp) (tr := tr) inj kn a).mp ⟨b, h⟩
  obtain ⟨b', hb'⟩ := (C208_returns_iff rw_ (tcomp := tcomp) (tr := tr) inj kn' a).mpr
    ⟨fun g hg => r1 g ((kn.enum.mem g).mpr ((kn'.enum.mem g).mp hg)), r2⟩
  rw [hb']
  obtain ⟨v1, v2⟩ := C208_values rw_ inj kn a h
  obtain ⟨w1, w2⟩ := C208_values rw_ inj kn' a hb'
  congr 1
  funext j
  by_cases hj : ∃ i, i < v.length ∧ mask i = true ∧ tgt i = j
  · obtain ⟨i, hi, hm, rfl⟩ := hj
    rw [v1 i hi hm, w1 i hi hm]
  · push Not at hj
    rw [v2 j hj, w2 j hj]

/-- The four values of one link, by the formulas of its class. -/
noncomputable def linkVal (eps : ℝ) (g1 g2 g3 h1 h2 : ℕ → ℝ) (s : Shape) (i : ℕ) : ℝ × ℝ × ℝ × ℝ :=
  match linkCalc eps (fun _ => g1 i) (fun _ => g2 i) (fun _ => g3 i) (fun _ => h1 i) (fun _ => h2 i) s [0] with
  | .ok v => v 0
  | .error _ => (0, 0, 0, 0)

/-- The classes of geometry.py work row by row: each link as if it were alone. -/
theorem C208_rowwise (eps : ℝ) (g1 g2 g3 h1 h2 : ℕ → ℝ) :
    Rowwise (linkCalc eps g1 g2 g3 h1 h2) (linkVal eps g1 g2 g3 h1 h2) := by
  intro s l
  cases s
  case floodplain => exact .inl ⟨rfl, rfl⟩
  all_goals exact .inr ⟨by simp, rfl⟩

/-- **C208 (which formulas).** The values of a link are the area, the perimeter, the hydraulic radius and — but for the slot of
closed conduits, see C112 — the width which the numba formulas of its section give for its own dimensions and depths. -/
theorem C208_link_formulas (eps : ℝ) (p : ℕ → GP) (h1 h2 : ℕ → ℝ) (s : Shape) (hs : s ≠ .floodplain) (i : ℕ) :
    let v := linkVal eps (fun i => (p i).g1) (fun i => (p i).g2) (fun i => (p i).g3) h1 h2 s i
    v.1 = area s (p i) (h1 i) (h2 i) ∧
    v.2.1 = perimeter eps (ellipticalPe (h1 i) (h2 i) (p i).g1 (p i).g2) s (p i) (h1 i) (h2 i) ∧
    v.2.2.1 = hydRadius v.1 v.2.1 ∧
    (s ≠ .circular → s ≠ .rectClosed → v.2.2.2 = topWidth s (p i) (h1 i) (h2 i)) := by
  obtain ⟨A, Pe, R, B, eA, eP, eR, eB, h⟩ :=
    C112_libraries_agree_partial eps s (fun _ => p i) (fun _ => h1 i) (fun _ => h2 i) hs
  have e : linkCalc eps (fun _ => (p i).g1) (fun _ => (p i).g2) (fun _ => (p i).g3) (fun _ => h1 i) (fun _ => h2 i) s [0]
      = .ok fun q => (A q, Pe q, R q, B q) := by
    have c : ∀ x : ℝ, sel (fun _ : ℕ => x) [0] = fun _ => x := fun _ => rfl
    simp only [linkCalc, c]
    rw [eA]
    simp only [raised, bind, Except.bind]
    rw [eP]
    simp only
    rw [eR]
    simp only
    rw [eB]
    rfl
  intro v
  have hv : v = (A 0, Pe 0, R 0, B 0) := by
    show linkVal _ _ _ _ _ _ _ _ = _
    rw [linkVal, e]
  rw [hv]
  exact h 0

/-- The sections of the documentation and the classes that compute them. -/
def sectionClasses : List (String × Shape) :=
  [("circular", .circular), ("rect_closed", .rectClosed), ("rect_open", .rectOpen), ("triangular", .triangular),
   ("trapezoidal", .trapezoidal), ("parabolic", .parabolic), ("elliptical", .elliptical), ("wide", .wide),
   ("force_main", .forceMain), ("floodplain", .floodplain)]

/-- **C208 (which class).** Each of the ten documented names finds its class, every other name raises `AttributeError`. -/
theorem C208_class_iff (g : String) :
    (∀ s, classNamed g = .ok s ↔ (g, s) ∈ sectionClasses) ∧
    ((∀ s, (g, s) ∉ sectionClasses) → classNamed g = .error .attribute) := by
  by_cases h1 : g = "circular"; · subst h1; simp [classNamed, geomCode, branch, sectionClasses, eq_comm]
  by_cases h2 : g = "rect_closed"; · subst h2; simp [classNamed, geomCode, branch, sectionClasses, List.lookup, eq_comm]
  by_cases h3 : g = "rect_open"; · subst h3; simp [classNamed, geomCode, branch, sectionClasses, List.lookup, eq_comm]
  by_cases h4 : g = "triangular"; · subst h4; simp [classNamed, geomCode, branch, sectionClasses, List.lookup, eq_comm]
  by_cases h5 : g = "trapezoidal"; · subst h5; simp [classNamed, geomCode, branch, sectionClasses, List.lookup, eq_comm]
  by_cases h6 : g = "parabolic"; · subst h6; simp [classNamed, geomCode, branch, sectionClasses, List.lookup, eq_comm]
  by_cases h7 : g = "elliptical"; · subst h7; simp [classNamed, geomCode, branch, sectionClasses, List.lookup, eq_comm]
  by_cases h8 : g = "wide"; · subst h8; simp [classNamed, geomCode, branch, sectionClasses, List.lookup, eq_comm]
  by_cases h9 : g = "force_main"; · subst h9; simp [classNamed, geomCode, branch, sectionClasses, List.lookup, eq_comm]
  by_cases h10 : g = "floodplain"; · subst h10; simp [classNamed, geomCode, branch, sectionClasses, List.lookup, eq_comm]
  have e : geomCode.lookup g = none := by
    simp [geomCode, List.lookup, h1, h2, h3, h4, h5, h6, h7, h8, h9, h10, beq_eq_false_iff_ne.mpr]
  simp [classNamed, e, sectionClasses, h1, h2, h3, h4, h5, h6, h7, h8, h9, h10]

/-- **C208 (unknown names).** A section name without a class lets no geometry be computed, for no link, wherever it stands in
the order of iteration. -/
theorem C208_unknown {comp : Shape → List ℕ → Except BErr (ℕ → V)} {tcomp : String → ℕ → V} {mask : ℕ → Bool} {tgt : ℕ → ℕ}
    {order v tr keys : List String} {g : String} (hg : g ∈ order) (un : ∀ s, (g, s) ∉ sectionClasses) (a b : ℕ → V) :
    geometryBase comp tcomp ⟨v, order.map fun g => (g, groupOf v g)⟩ tr keys mask tgt a ≠ .ok b := by
  have key : ∀ (order : List String), g ∈ order → ∀ a b : ℕ → V,
      regularLoop comp mask tgt (order.map fun g => (g, groupOf v g)) a ≠ .ok b := by
    intro order
    induction order with
    | nil => intro h; simp at h
    | cons g' rest ih =>
      intro h a b hb
      simp only [List.map_cons, regularLoop, bind, Except.bind] at hb
      cases hc : classNamed g' with
      | error e => rw [hc] at hb; simp at hb
      | ok s =>
        rw [hc] at hb
        simp only at hb
        have hne : g ≠ g' := fun e => un s (((C208_class_iff g).1 s).mp (by rw [e]; exact hc))
        cases hm : comp s ((groupOf v g').filter mask) with
        | error e => rw [hm] at hb; simp at hb
        | ok w =>
          rw [hm] at hb
          exact ih ((List.mem_cons.mp h).resolve_left hne) _ _ hb
  intro h
  unfold geometryBase at h
  simp only [bind, Except.bind] at h
  cases hr : regularLoop comp mask tgt (order.map fun g => (g, groupOf v g)) a with
  | error e => rw [hr] at h; simp at h
  | ok c => exact key order hg a c hr

example : ∀ s, ("horseshoe", s) ∉ sectionClasses := by simp [sectionClasses]

/-- **C208 fails (also repaired): a survey that is needed only inside a superlink.** A transect that no first link of a superlink
has makes `upstream_hydraulic_geometry` raise `KeyError` as soon as some first link is irregular, and likewise downstream. -/
theorem C208_inner_transect {comp : Shape → List ℕ → Except BErr (ℕ → V)} {val : Shape → ℕ → V} (rw_ : Rowwise comp val)
    {tcomp : String → ℕ → V} {mask : ℕ → Bool} {tgt : ℕ → ℕ} {order v tr keys : List String} {cl : String → Shape}
    (inj : ∀ i j, mask i = true → mask j = true → tgt i = tgt j → i = j) (kn : Known order v keys cl) (a : ℕ → V)
    (fl : ∀ g ∈ order, cl g ≠ .floodplain) {i : ℕ} (hi : i ∈ irregularRows v mask) {nm : String} (hn : nm ∈ keys)
    (no : ∀ i ∈ irregularRows v mask, tr.getD i "" ≠ nm) :
    geometryBase comp tcomp ⟨v, order.map fun g => (g, groupOf v g)⟩ tr keys mask tgt a = .error .key := by
  obtain ⟨-, rg⟩ := regularLoop_spec rw_ (v := v) inj order cl kn.cls kn.enum.nodup a
  obtain ⟨c, hc, -, -⟩ := rg fl
  unfold geometryBase
  simp only [bind, Except.bind]
  rw [hc]
  have he : irregularRows v mask ≠ [] := fun e => by rw [e] at hi; simp at hi
  simp only [he, if_false]
  exact (transectLoop_spec (tcomp := tcomp) (v := v) (tr := tr) inj keys kn.keysNodup c).1 ⟨nm, hn, no⟩

/-- Two superlinks of two links, `circular`, `irregular` and `irregular`, `wide`: links and upstream ends are computed with one
transect; with a second transect, used by no first link, upstream ends raise. -/
example (eps : ℝ) (g1 g2 g3 h1 h2 : ℕ → ℝ) (tcomp : String → ℕ → ℝ × ℝ × ℝ × ℝ) (a : ℕ → ℝ × ℝ × ℝ × ℝ) :
    let v := ["circular", "irregular", "irregular", "wide"]
    let q : Groups := ⟨v, ["wide", "circular"].map fun g => (g, groupOf v g)⟩
    let first : ℕ → Bool := fun i => i == 0 || i == 2
    (∃ b, geometryBase (linkCalc eps g1 g2 g3 h1 h2) tcomp q ["", "creek", "creek", ""] ["creek"] (fun _ => true) id a = .ok b ∧
      b 0 = linkVal eps g1 g2 g3 h1 h2 .circular 0 ∧ b 1 = tcomp "creek" 1 ∧ b 2 = tcomp "creek" 2 ∧
      b 3 = linkVal eps g1 g2 g3 h1 h2 .wide 3 ∧ b 4 = a 4) ∧
    (∃ b, geometryBase (linkCalc eps g1 g2 g3 h1 h2) tcomp q ["", "ditch", "creek", ""] ["creek", "ditch"] (fun _ => true) id a
      = .ok b ∧ b 1 = tcomp "ditch" 1) ∧
    geometryBase (linkCalc eps g1 g2 g3 h1 h2) tcomp q ["", "ditch", "creek", ""] ["creek", "ditch"] first (· / 2) a
      = .error .key := by
  intro v q first
  let cl : String → Shape := fun g => if g = "wide" then .wide else .circular
  have en : Enumerates ["wide", "circular"] v := ⟨by simp, fun g => by simp [v]; aesop⟩
  have cls : ∀ g ∈ ["wide", "circular"], classNamed g = .ok (cl g) := by
    intro g hg
    simp only [List.mem_cons, List.not_mem_nil, or_false] at hg
    rcases hg with rfl | rfl <;> simp [classNamed, geomCode, branch, cl, List.lookup]
  have fl : ∀ g ∈ ["wide", "circular"], cl g ≠ .floodplain := by
    intro g _; simp only [cl]; split_ifs <;> simp
  have rw_ := C208_rowwise eps g1 g2 g3 h1 h2
  have rows : irregularRows v (fun _ => true) = [1, 2] := by decide
  have rowsF : irregularRows v first = [2] := by decide
  have injId : ∀ i j : ℕ, (fun _ : ℕ => true) i = true → (fun _ : ℕ => true) j = true → id i = id j → i = j := fun _ _ _ _ e => e
  have injF : ∀ i j : ℕ, first i = true → first j = true → i / 2 = j / 2 → i = j := fun i j hi hj e => by
    simp only [first, Bool.or_eq_true, beq_iff_eq] at hi hj; omega
  have k1 : Known ["wide", "circular"] v ["creek"] cl := ⟨en, cls, by simp⟩
  have k2 : Known ["wide", "circular"] v ["creek", "ditch"] cl := ⟨en, cls, by simp⟩
  refine ⟨?_, ?_, ?_⟩
  · obtain ⟨b, hb⟩ := (C208_returns_iff rw_ (tcomp := tcomp) (tr := ["", "creek", "creek", ""]) injId k1 a).mpr
      ⟨fl, .inr fun nm hn => ⟨1, by rw [rows]; simp, by simpa using (List.mem_singleton.mp hn).symm⟩⟩
    obtain ⟨b1, b2⟩ := C208_values rw_ injId k1 a hb
    refine ⟨b, hb, ?_, ?_, ?_, ?_, ?_⟩
    · simpa [v, cl] using b1 0 (by simp [v]) rfl
    · simpa [v, cl] using b1 1 (by simp [v]) rfl
    · simpa [v, cl] using b1 2 (by simp [v]) rfl
    · simpa [v, cl] using b1 3 (by simp [v]) rfl
    · exact b2 4 fun i hi _ e => by simp [v] at hi; simp at e; omega
  · obtain ⟨b, hb⟩ := (C208_returns_iff rw_ (tcomp := tcomp) (tr := ["", "ditch", "creek", ""]) injId k2 a).mpr
      ⟨fl, .inr fun nm hn => by
        simp only [List.mem_cons, List.not_mem_nil, or_false] at hn
        rw [rows]
        rcases hn with rfl | rfl
        · exact ⟨2, by simp, rfl⟩
        · exact ⟨1, by simp, rfl⟩⟩
    refine ⟨b, hb, ?_⟩
    simpa [v, cl] using (C208_values rw_ injId k2 a hb).1 1 (by simp [v]) rfl
  · exact C208_inner_transect rw_ injF k2 a fl (i := 2) (by rw [rowsF]; simp) (nm := "ditch") (by simp)
      (fun i hi => by rw [rowsF] at hi; simp at hi; subst hi; decide)

/-! ### Orifices -/

theorem classNamed_forceMain {g : String} (h : classNamed g = .ok .forceMain) : g = "force_main" := by
  unfold classNamed geomCode at h
  simp only [List.lookup] at h
  split at h
  case h_2 => cases h
  case h_1 s hs =>
    cases h
    revert hs
    (repeat' split) <;> simp_all [branch]

theorem regularLoop_all {comp : Shape → List ℕ → Except BErr (ℕ → V)} {mask : ℕ → Bool} {tgt : ℕ → ℕ} :
    ∀ {gs : List (String × List ℕ)} {a b : ℕ → V}, regularLoop comp mask tgt gs a = .ok b →
      ∀ q ∈ gs, ∃ s w, classNamed q.1 = .ok s ∧ comp s (q.2.filter mask) = .ok w
  | [], _, _, _, q, hq => by simp at hq
  | (g, l) :: rest, a, b, h, q, hq => by
    simp only [regularLoop, bind, Except.bind] at h
    cases hs : classNamed g with
    | error e => rw [hs] at h; cases h
    | ok s =>
      rw [hs] at h
      simp only at h
      cases hw : comp s (l.filter mask) with
      | error e => rw [hw] at h; cases h
      | ok w =>
        rw [hw] at h
        rcases List.mem_cons.mp hq with rfl | hq
        · exact ⟨s, w, hs, hw⟩
        · exact regularLoop_all h q hq

theorem orificeComp_ok {n : ℕ} {g1 g2 g3 h_e : ℕ → ℝ} {s : Shape} {l : List ℕ} {w : ℕ → ℝ}
    (h : orificeComp n g1 g2 g3 h_e s l = .ok w) : s ≠ .floodplain ∧ (l.length = n ∨ s = .forceMain) := by
  unfold orificeComp at h
  by_cases hf : s = .floodplain
  · rw [if_pos (.inr (.inr hf)), hf] at h; cases h
  · refine ⟨hf, ?_⟩
    by_contra hc
    rw [not_or] at hc
    rw [if_neg (by tauto)] at h
    split_ifs at h

/-- **C208 fails (also repaired): orifices of different shapes.** The areas of the orifices are computed exactly if all orifices have
the same shape; then each has the area of that shape. -/
theorem C208_orifices_iff {v order : List String} {cl : String → Shape} (nd : order.Nodup) (mem : ∀ g, g ∈ order ↔ g ∈ v)
    (cls : ∀ g ∈ order, classNamed g = .ok (cl g)) (fl : ∀ g ∈ order, cl g ≠ .floodplain) (g1 g2 g3 h_e a : ℕ → ℝ) :
    ((∃ b, regularLoop (orificeComp v.length g1 g2 g3 h_e) (fun _ => true) id (order.map fun g => (g, groupOf v g)) a = .ok b) ↔
      ∀ g ∈ v, ∀ g' ∈ v, g = g') ∧
    ∀ b, regularLoop (orificeComp v.length g1 g2 g3 h_e) (fun _ => true) id (order.map fun g => (g, groupOf v g)) a = .ok b →
      ∀ i, i < v.length → .ok (b i) = (vArea (cl (v.getD i "")) g1 g2 g3 h_e h_e).map fun w => w i := by
  have full : (∀ g ∈ v, ∀ g' ∈ v, g = g') → ∀ g ∈ v, groupOf v g = List.range v.length := fun hs g hg => by
    unfold groupOf flat
    refine List.filter_eq_self.mpr fun i hi => ?_
    have hi' := List.mem_range.mp hi
    have : v.getD i "" ∈ v := by
      rw [List.getD_eq_getElem?_getD, List.getElem?_eq_getElem hi']; exact List.getElem_mem hi'
    simpa using hs _ this g hg
  have single : (∀ g ∈ v, ∀ g' ∈ v, g = g') → v ≠ [] → ∃ g ∈ v, order = [g] := fun hs hne => by
    obtain ⟨g, hg⟩ := List.exists_mem_of_ne_nil v hne
    refine ⟨g, hg, ?_⟩
    have hall : ∀ x ∈ order, x = g := fun x hx => hs x ((mem x).mp hx) g hg
    have hgo := (mem g).mpr hg
    match order, nd, hall, hgo with
    | [], _, _, h => simp at h
    | [x], _, h, _ => rw [h x List.mem_cons_self]
    | x :: y :: r, nd, h, _ =>
      have e1 := h x List.mem_cons_self
      have e2 := h y (List.mem_cons_of_mem _ List.mem_cons_self)
      simp [e1, e2] at nd
  have same_of : ∀ b, regularLoop (orificeComp v.length g1 g2 g3 h_e) (fun _ => true) id (order.map fun g => (g, groupOf v g)) a
      = .ok b → ∀ g ∈ v, ∀ g' ∈ v, g = g' := fun b hb g hg g' hg' => by
    by_contra hne
    have fm : ∀ x ∈ v, ∀ y ∈ v, x ≠ y → x = "force_main" := fun x hx y hy hxy => by
      have hxo := (mem x).mpr hx
      obtain ⟨s, w, h1, h2⟩ := regularLoop_all hb (x, groupOf v x) (List.mem_map.mpr ⟨x, hxo, rfl⟩)
      obtain ⟨-, h3⟩ := orificeComp_ok h2
      rcases h3 with h3 | rfl
      · exfalso
        rw [List.filter_eq_self.mpr fun _ _ => rfl] at h3
        unfold groupOf flat at h3
        have h4 : (List.range v.length).filter (fun i => decide (v.getD i "" = x)) = List.range v.length :=
          List.filter_eq_self.mpr (List.length_filter_eq_length_iff.mp (by rw [h3, List.length_range]))
        obtain ⟨q, hq, e⟩ := List.getElem_of_mem hy
        have := (List.filter_eq_self.mp h4) q (List.mem_range.mpr hq)
        rw [List.getD_eq_getElem?_getD, List.getElem?_eq_getElem hq] at this
        simp only [Option.getD_some, decide_eq_true_eq] at this
        exact hxy (this.symm.trans e)
      · exact classNamed_forceMain h1
    exact hne ((fm g hg g' hg' hne).trans (fm g' hg' g hg (Ne.symm hne)).symm)
  have calcs : (hs : ∀ g ∈ v, ∀ g' ∈ v, g = g') → v ≠ [] → ∃ g ∈ v, ∃ w, vArea (cl g) g1 g2 g3 h_e h_e = .ok w ∧
      regularLoop (orificeComp v.length g1 g2 g3 h_e) (fun _ => true) id (order.map fun g => (g, groupOf v g)) a =
        .ok (put a (List.range v.length) w) := fun hs hne => by
    obtain ⟨g, hg, ho⟩ := single hs hne
    have kg := cls g ((mem g).mpr hg)
    have fg := fl g ((mem g).mpr hg)
    have loc : ∃ w w', vArea (cl g) g1 g2 g3 h_e h_e = .ok w ∧
        vArea (cl g) (sel g1 (List.range v.length)) (sel g2 (List.range v.length)) (sel g3 (List.range v.length)) h_e h_e = .ok w' ∧
        ∀ i, i < v.length → w' i = w i := by
      have e : ∀ i, i < v.length → (List.range v.length).getD i 0 = i := fun i hi => by
        rw [List.getD_eq_getElem?_getD, List.getElem?_eq_getElem (by rwa [List.length_range])]; simp
      have e1 : ∀ (f : ℕ → ℝ) i, i < v.length → sel f (List.range v.length) i = f i := fun f i hi => by
        unfold sel; rw [e i hi]
      revert fg
      cases cl g <;> intro fg
      case floodplain => exact absurd rfl fg
      all_goals
        refine ⟨_, _, rfl, rfl, fun i hi => ?_⟩
        simp only [vDepth, vTheta, mask, e1 g1 i hi, e1 g2 i hi, e1 g3 i hi]
    obtain ⟨w, w', hw, hw', ew⟩ := loc
    refine ⟨g, hg, w, hw, ?_⟩
    rw [ho]
    simp only [List.map_cons, List.map_nil, regularLoop, kg, full hs g hg, bind, Except.bind]
    rw [List.filter_eq_self.mpr fun _ _ => rfl]
    unfold orificeComp
    rw [if_pos (.inl List.length_range), hw']
    simp only [raised, List.map_id]
    congr 1
    funext j
    have pr : ∀ q, q < (List.range v.length).length → (List.range v.length).getD q 0 = q := fun q hq => by
      rw [List.getD_eq_getElem?_getD, List.getElem?_eq_getElem hq]; simp
    rw [put_apply a w' w' (fun q hq => by rw [pr q hq]), put_apply a w w (fun q hq => by rw [pr q hq])]
    split_ifs with hj
    · exact ew j (List.mem_range.mp hj)
    · rfl
  refine ⟨⟨fun ⟨b, hb⟩ => same_of b hb, fun hs => ?_⟩, fun b hb i hi => ?_⟩
  · by_cases hne : v = []
    · have : order = [] := List.eq_nil_iff_forall_not_mem.mpr fun g hg => by
        have := (mem g).mp hg; rw [hne] at this; simp at this
      exact ⟨a, by rw [this]; rfl⟩
    · obtain ⟨g, hg, w, hw, hl⟩ := calcs hs hne
      exact ⟨_, hl⟩
  · have hs := same_of b hb
    have hiv : v.getD i "" ∈ v := by
      rw [List.getD_eq_getElem?_getD, List.getElem?_eq_getElem hi]; exact List.getElem_mem hi
    obtain ⟨g, hg, w, hw, hl⟩ := calcs hs (List.ne_nil_of_mem hiv)
    rw [hl] at hb
    cases hb
    rw [hs _ hiv g hg, hw]
    have pr : ∀ q, q < (List.range v.length).length → (List.range v.length).getD q 0 = q := fun q hq => by
      rw [List.getD_eq_getElem?_getD, List.getElem?_eq_getElem hq]; simp
    rw [put_apply a w w (fun q hq => by rw [pr q hq]), if_pos (List.mem_range.mpr hi)]
    rfl

/-- A round and a rectangular orifice in one network: the areas are never computed. -/
example (g1 g2 g3 h_e a : ℕ → ℝ) : ¬ ∃ b, regularLoop (orificeComp 2 g1 g2 g3 h_e) (fun _ => true) id
    (["rect_open", "circular"].map fun g => (g, groupOf ["circular", "rect_open"] g)) a = .ok b := by
  intro h
  have := (C208_orifices_iff (v := ["circular", "rect_open"]) (order := ["rect_open", "circular"])
    (cl := fun g => if g = "circular" then .circular else .rectOpen) (by simp) (fun g => by simp [or_comm])
    (by
      intro g hg
      simp only [List.mem_cons, List.not_mem_nil, or_false] at hg
      rcases hg with rfl | rfl <;> simp [classNamed, geomCode, branch, List.lookup])
    (by intro g _; split_ifs <;> simp) g1 g2 g3 h_e a).1.mp h
  simpa using this "circular" (by simp) "rect_open" (by simp)

end Pipedream.Base
