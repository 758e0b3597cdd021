import Verif.BaseNetModel
import Verif.NetworkProps

/-!
# C133: the pure-Python class solves the same head equations

Compared with the compiled class (`Verif.NetworkProps`). It does where nothing is stored in pipe ends, no superlink
returns to the superjunction it starts from, and the step is not iterated.
-/

namespace Pipedream.Network

variable {K : Type*} [Field K] [LinearOrder K]

/-! ### The loops in closed form -/

open Classical in
omit [LinearOrder K] in
theorem zeroAt_apply (bc : ℕ → Bool) (R C : ℕ → ℕ) (n : ℕ) (A : ℕ → ℕ → K) (r c : ℕ) :
    zeroAt bc R C n A r c = if bc r = false ∧ ∃ k, k < n ∧ R k = r ∧ C k = c then 0 else A r c := by
  unfold zeroAt
  induction n with
  | zero => simp
  | succ n ih =>
    rw [forRange_succ]
    have hex : (∃ k, k < n + 1 ∧ R k = r ∧ C k = c) ↔ (R n = r ∧ C n = c) ∨ ∃ k, k < n ∧ R k = r ∧ C k = c := by
      constructor
      · rintro ⟨k, hk, h⟩
        rcases Nat.lt_succ_iff_lt_or_eq.mp hk with h' | rfl
        · exact Or.inr ⟨k, h', h⟩
        · exact Or.inl h
      · rintro (h | ⟨k, hk, h⟩)
        · exact ⟨n, by omega, h⟩
        · exact ⟨k, by omega, h⟩
    by_cases hb : bc (R n) = true
    · rw [if_pos hb, ih]
      by_cases h1 : R n = r ∧ C n = c
      · have : bc r = true := h1.1 ▸ hb
        simp [this]
      · simp only [hex, h1, false_or]
    · rw [if_neg hb, upd2_apply, ih]
      by_cases h1 : R n = r ∧ C n = c
      · have h2 : r = R n ∧ c = C n := ⟨h1.1.symm, h1.2.symm⟩
        have h3 : bc r = false := by rw [← h1.1]; simpa using hb
        rw [if_pos h2, if_pos ⟨h3, hex.mpr (Or.inl h1)⟩]
      · have h2 : ¬ (r = R n ∧ c = C n) := fun h => h1 ⟨h.1.symm, h.2.symm⟩
        rw [if_neg h2]
        simp only [hex, h1, false_or]

omit [LinearOrder K] in
theorem addAt2_apply (bc : ℕ → Bool) (R C : ℕ → ℕ) (v : ℕ → K) (n : ℕ) (A : ℕ → ℕ → K) (r c : ℕ) :
    addAt2 bc R C v n A r c
      = A r c + if bc r then 0 else ∑ k ∈ Finset.range n, (if R k = r ∧ C k = c then v k else 0) := by
  unfold addAt2
  induction n with
  | zero => simp
  | succ n ih =>
    rw [forRange_succ]
    by_cases hb : bc (R n) = true
    · rw [if_pos hb, ih, Finset.sum_range_succ]
      by_cases h1 : R n = r ∧ C n = c
      · have : bc r = true := h1.1 ▸ hb
        simp [this]
      · simp [h1]
    · rw [if_neg hb, upd2_apply, Finset.sum_range_succ]
      by_cases h1 : R n = r ∧ C n = c
      · obtain ⟨rfl, rfl⟩ := h1
        simp only [and_self, if_true]
        rw [ih]; simp [hb]; ring
      · have h2 : ¬ (r = R n ∧ c = C n) := fun h => h1 ⟨h.1.symm, h.2.symm⟩
        rw [if_neg h2, ih]; simp [h1]

omit [Field K] [LinearOrder K] in
theorem setFree_apply (bc : ℕ → Bool) (d : ℕ → K) (M : ℕ) (A : ℕ → ℕ → K) (r c : ℕ) :
    setFree bc d M A r c = if r = c ∧ r < M ∧ bc r = false then d r else A r c := by
  unfold setFree
  induction M with
  | zero => simp
  | succ M ih =>
    rw [forRange_succ]
    by_cases hb : bc M = true
    · rw [if_pos hb, ih]
      by_cases h : r = M
      · subst h; simp [hb]
      · have : r < M + 1 ↔ r < M := by omega
        simp only [this]
    · rw [if_neg hb, upd2_apply, ih]
      by_cases h : r = M
      · subst h
        have hb' : bc r = false := by simpa using hb
        by_cases h2 : r = c
        · subst h2; simp [hb']
        · have : ¬ c = r := fun h => h2 h.symm
          simp [h2, this]
      · have : r < M + 1 ↔ r < M := by omega
        simp only [this, h, false_and, if_false]

omit [LinearOrder K] in
theorem setFixed_apply (bc : ℕ → Bool) (M : ℕ) (A : ℕ → ℕ → K) (r c : ℕ) :
    setFixed bc M A r c = if r = c ∧ r < M ∧ bc r = true then 1 else A r c := by
  unfold setFixed
  induction M with
  | zero => simp
  | succ M ih =>
    rw [forRange_succ]
    by_cases hb : bc M = true
    · rw [if_pos hb, upd2_apply, ih]
      by_cases h : r = M
      · subst h
        by_cases h2 : r = c
        · subst h2; simp [hb]
        · have : ¬ c = r := fun h => h2 h.symm
          simp [h2, this]
      · have : r < M + 1 ↔ r < M := by omega
        simp only [this, h, false_and, if_false]
    · rw [if_neg hb, ih]
      by_cases h : r = M
      · subst h; simp [hb]
      · have : r < M + 1 ↔ r < M := by omega
        simp only [this]

open Classical in
omit [LinearOrder K] in
theorem offDiagBase_apply (bc : ℕ → Bool) (Ju Jd : ℕ → ℕ) (bu ad : ℕ → K) (n : ℕ) (A : ℕ → ℕ → K) (r c : ℕ) :
    offDiagBase bc Ju Jd bu ad n A r c
      = if bc r then A r c
        else (if Pattern Ju Jd n r c then 0 else A r c)
          + ∑ k ∈ Finset.range n, (if Ju k = r ∧ Jd k = c then bu k else 0)
          - ∑ k ∈ Finset.range n, (if Jd k = r ∧ Ju k = c then ad k else 0) := by
  unfold offDiagBase
  simp only [addAt2_apply, zeroAt_apply]
  by_cases hb : bc r = true
  · simp [hb]
  · have hb' : bc r = false := by simpa using hb
    have hp : Pattern Ju Jd n r c ↔ (∃ k, k < n ∧ Jd k = r ∧ Ju k = c) ∨ ∃ k, k < n ∧ Ju k = r ∧ Jd k = c := by
      unfold Pattern
      constructor
      · rintro ⟨k, hk, h | h⟩
        · exact Or.inr ⟨k, hk, h⟩
        · exact Or.inl ⟨k, hk, h⟩
      · rintro (⟨k, hk, h⟩ | ⟨k, hk, h⟩)
        · exact ⟨k, hk, Or.inr h⟩
        · exact ⟨k, hk, Or.inl h⟩
    have hneg : ∑ k ∈ Finset.range n, (if Jd k = r ∧ Ju k = c then -ad k else 0)
        = -∑ k ∈ Finset.range n, (if Jd k = r ∧ Ju k = c then ad k else 0) := by
      rw [← Finset.sum_neg_distrib]
      exact Finset.sum_congr rfl fun k _ => by split_ifs <;> simp
    simp only [hb', true_and, Bool.false_eq_true, if_false, hneg, hp]
    by_cases h1 : ∃ k, k < n ∧ Jd k = r ∧ Ju k = c <;> by_cases h2 : ∃ k, k < n ∧ Ju k = r ∧ Jd k = c <;>
      simp only [h1, h2, or_true, or_false, if_true, if_false] <;> ring

/-! ### Specification -/

/-- The network without storage in pipe ends. -/
def Net.noEnds (net : Net K) : Net K :=
  { net with links := { net.links with xi_u := fun _ => 0, xi_d := fun _ => 0 } }

/-- No element returns to the superjunction it starts from. -/
structure NoLoops (net : Net K) : Prop where
  l : ∀ k, k < net.links.n → net.links.Ju k ≠ net.links.Jd k
  o : ∀ k, k < net.orifices.n → net.orifices.Ju k ≠ net.orifices.Jd k
  w : ∀ k, k < net.weirs.n → net.weirs.Ju k ≠ net.weirs.Jd k
  p : ∀ k, k < net.pumps.n → net.pumps.Ju k ≠ net.pumps.Jd k

/-- Clean matrices whose control blocks are zero at fixed heads. -/
structure CleanBase (net : Net K) (m : Mats K) : Prop extends CleanMats net m where
  o : ∀ r, net.bc r = true → m.O r r = 0
  w : ∀ r, net.bc r = true → m.W r r = 0
  p : ∀ r, net.bc r = true → m.P r r = 0

omit [LinearOrder K] in
theorem no_pattern {Ju Jd : ℕ → ℕ} {n : ℕ} (h : ∀ k, k < n → Ju k ≠ Jd k) (r : ℕ) : ¬ Pattern Ju Jd n r r := by
  rintro ⟨k, hk, h1 | h1⟩
  · exact h k hk (h1.1.trans h1.2.symm)
  · exact h k hk (h1.2.trans h1.1.symm)

omit [LinearOrder K] in
theorem baseA_eq (net : Net K) (dt : K) (X : ℕ → ℕ → K)
    (hX : CleanA net.bc net.links.Ju net.links.Jd net.links.n X)
    (hl : ∀ k, k < net.links.n → net.links.Ju k ≠ net.links.Jd k) (r c : ℕ) (hr : r < net.M ∨ r ≠ c) :
    baseA net dt X r c = specA net.noEnds dt r c := by
  classical
  unfold baseA specA blockSpec
  simp only [offDiagBase_apply, setFixed_apply, setFree_apply, Net.noEnds, addAt_apply, Fdiag]
  by_cases hrc : r = c
  · subst hrc
    have hrM : r < net.M := hr.resolve_right (fun h => h rfl)
    by_cases hb : net.bc r = true
    · simp [hb, hrM]
    · have hb' : net.bc r = false := by simpa using hb
      simp only [hb', no_pattern hl r, hrM, Bool.false_eq_true, if_false, if_true, and_self, and_false,
        zero_add, add_zero]
      congr 2
      rw [Finset.sum_add_distrib]
      have : ∑ k ∈ Finset.range net.links.n, (if net.links.Jd k = r then -net.links.beta_d k else 0)
          = -∑ k ∈ Finset.range net.links.n, (if net.links.Jd k = r then net.links.beta_d k else 0) := by
        rw [← Finset.sum_neg_distrib]
        exact Finset.sum_congr rfl fun k _ => by split_ifs <;> simp
      rw [this]; ring
  · by_cases hb : net.bc r = true
    · simp [hb, hrc, hX.off r c hrc (Or.inl hb)]
    · have hb' : net.bc r = false := by simpa using hb
      by_cases hp : Pattern net.links.Ju net.links.Jd net.links.n r c
      · simp [hb', hrc, hp]; congr
      · simp [hb', hrc, hp, hX.off r c hrc (Or.inr hp)]; congr

omit [LinearOrder K] in
theorem baseBlock_eq (bc : ℕ → Bool) (M : ℕ) (C : Ctrls K) (X : ℕ → ℕ → K) (hX : Clean bc C.Ju C.Jd C.n X)
    (hd : ∀ r, bc r = true → X r r = 0) (hl : ∀ k, k < C.n → C.Ju k ≠ C.Jd k) (r c : ℕ) (hr : r < M ∨ r ≠ c) :
    baseBlock bc M C X r c = specC bc C r c := by
  classical
  unfold baseBlock
  by_cases h0 : C.n = 0
  · have hn : ¬ Pattern C.Ju C.Jd C.n r c := by rintro ⟨k, hk, -⟩; omega
    rw [if_pos h0]
    by_cases hrc : r = c
    · subst hrc; rw [hX.empty h0]; simp [specC, blockSpec, Cdiag, h0]
    · rw [hX.off r c hrc (Or.inr hn), specC, blockSpec_off _ _ _ _ _ _ _ _ _ _ hrc (Or.inr hn)]
  · rw [if_neg h0]
    unfold specC blockSpec
    simp only [offDiagBase_apply, setFree_apply, addAt_apply, Cdiag]
    by_cases hrc : r = c
    · subst hrc
      have hrM : r < M := hr.resolve_right (fun h => h rfl)
      by_cases hb : bc r = true
      · simp [hb, hd r hb]
      · have hb' : bc r = false := by simpa using hb
        simp only [hb', no_pattern hl r, hrM, Bool.false_eq_true, if_false, if_true, and_self, zero_add]
        congr 2
        rw [Finset.sum_add_distrib]
        have : ∑ k ∈ Finset.range C.n, (if C.Jd k = r then -C.beta k else 0)
            = -∑ k ∈ Finset.range C.n, (if C.Jd k = r then C.beta k else 0) := by
          rw [← Finset.sum_neg_distrib]
          exact Finset.sum_congr rfl fun k _ => by split_ifs <;> simp
        rw [this]; ring
    · by_cases hb : bc r = true
      · simp [hb, hrc, hX.off r c hrc (Or.inl hb)]
      · have hb' : bc r = false := by simpa using hb
        by_cases hp : Pattern C.Ju C.Jd C.n r c
        · simp [hb', hrc, hp]
        · simp [hb', hrc, hp, hX.off r c hrc (Or.inr hp)]

omit [LinearOrder K] in
theorem baseCtrlD_apply (bc : ℕ → Bool) (C : Ctrls K) (D : ℕ → K) (i : ℕ) (hb : bc i = false) :
    baseCtrlD bc C D i
      = D i + ∑ k ∈ Finset.range C.n, ((if C.Jd k = i then C.chi k else 0) - (if C.Ju k = i then C.chi k else 0)) := by
  unfold baseCtrlD
  split_ifs with h
  · simp [h]
  · simp only [hb, Bool.false_eq_true, if_false, addAt_apply, zero_add, Finset.sum_sub_distrib]
    ring

omit [LinearOrder K] in
theorem noEnds_xiSum (net : Net K) (i : ℕ) : net.noEnds.links.xiSum i = 0 := by
  change ∑ k ∈ Finset.range net.links.n, ((if net.links.Ju k = i then (0 : K) else 0)
    + (if net.links.Jd k = i then (0 : K) else 0)) = 0
  simp

omit [LinearOrder K] in
theorem baseB_eq (net : Net K) (dt : K) (H Q0 Hbc : ℕ → K) :
    baseB net dt H Q0 Hbc = assembleB net.noEnds dt H Q0 Hbc := by
  funext i
  unfold baseB assembleB
  by_cases hb : net.bc i = true
  · simp [hb, Net.noEnds]
  · have hb' : net.bc i = false := by simpa using hb
    have h1 : net.noEnds.bc = net.bc := rfl
    rw [h1, hb', if_neg (by simp), if_neg (by simp), assembleD_apply]
    unfold baseD
    simp only [baseCtrlD_apply _ _ _ _ hb', addAt_apply, zero_add]
    rw [noEnds_xiSum]
    change _ = net.As i * H i / dt + Q0 i + (0 * H i
      + ∑ k ∈ Finset.range net.links.n, ((if net.links.Jd k = i then net.links.chi_d k else 0)
          - (if net.links.Ju k = i then net.links.chi_u k else 0))
      + ∑ k ∈ Finset.range net.orifices.n, ((if net.orifices.Jd k = i then net.orifices.chi k else 0)
          - (if net.orifices.Ju k = i then net.orifices.chi k else 0))
      + ∑ k ∈ Finset.range net.weirs.n, ((if net.weirs.Jd k = i then net.weirs.chi k else 0)
          - (if net.weirs.Ju k = i then net.weirs.chi k else 0))
      + ∑ k ∈ Finset.range net.pumps.n, ((if net.pumps.Jd k = i then net.pumps.chi k else 0)
          - (if net.pumps.Ju k = i then net.pumps.chi k else 0)))
    simp only [Finset.sum_sub_distrib]
    ring

/-! ### C133 -/

omit [LinearOrder K] in
/-- The systems of the two classes, for a network without storage in pipe ends. -/
theorem base_system_eq (net : Net K) (dt : K) (m m' : Mats K) (hm : CleanBase net m) (hm' : CleanMats net m')
    (hl : NoLoops net) (r c : ℕ) (hr : r < net.M) :
    systemMatrix net (baseMats net dt m) r c
      = systemMatrix net.noEnds (assembleMats net.noEnds dt m') r c := by
  have hm2 : CleanMats net.noEnds m' := ⟨⟨hm'.A.off⟩, hm'.O, hm'.W, hm'.P⟩
  rw [(C11_no_stale_coefficients net.noEnds dt m' hm2).1 r c hr]
  have eA := baseA_eq net dt m.A hm.A hl.l r c (Or.inl hr)
  have eO := baseBlock_eq net.bc net.M net.orifices m.O hm.O hm.o hl.o r c (Or.inl hr)
  have eW := baseBlock_eq net.bc net.M net.weirs m.W hm.W hm.w hl.w r c (Or.inl hr)
  have eP := baseBlock_eq net.bc net.M net.pumps m.P hm.P hm.p hl.p r c (Or.inl hr)
  unfold systemMatrix
  split_ifs with h
  · have ho : net.orifices.n = 0 := by omega
    have hw : net.weirs.n = 0 := by omega
    have hp : net.pumps.n = 0 := by omega
    have z : ∀ C : Ctrls K, C.n = 0 → specC net.bc C r c = 0 := by
      intro C h0; simp [specC, blockSpec, Cdiag, h0]
    unfold specL
    rw [show net.noEnds.bc = net.bc from rfl, show net.noEnds.orifices = net.orifices from rfl,
      show net.noEnds.weirs = net.weirs from rfl, show net.noEnds.pumps = net.pumps from rfl, z _ ho, z _ hw, z _ hp]
    simpa [baseMats] using eA
  · simp only [baseMats, specL]
    rw [eA, eO, eW, eP]; rfl

omit [LinearOrder K] in
theorem baseBlock_clean (bc : ℕ → Bool) (M : ℕ) (C : Ctrls K) (X : ℕ → ℕ → K) (hX : Clean bc C.Ju C.Jd C.n X)
    (hd : ∀ r, bc r = true → X r r = 0) (hl : ∀ k, k < C.n → C.Ju k ≠ C.Jd k) :
    Clean bc C.Ju C.Jd C.n (baseBlock bc M C X) ∧ ∀ r, bc r = true → baseBlock bc M C X r r = 0 := by
  classical
  refine ⟨⟨fun r c hrc h => ?_, fun h0 r => ?_⟩, fun r hb => ?_⟩
  · rw [baseBlock_eq bc M C X hX hd hl r c (Or.inr hrc)]
    exact blockSpec_off _ _ _ _ _ _ _ _ _ _ hrc h
  · rw [baseBlock, if_pos h0]; exact hX.empty h0 r
  · unfold baseBlock
    split_ifs
    · exact hd r hb
    · simp only [offDiagBase_apply, setFree_apply, hb, if_true]
      simp [hd r hb]

omit [LinearOrder K] in
/-- **C133 (no stale coefficients).** What an assembly of the pure-Python class leaves can be reassembled. -/
theorem C133_reassembled (net : Net K) (dt : K) (m : Mats K) (hm : CleanBase net m) (hl : NoLoops net) :
    CleanBase net (baseMats net dt m) := by
  obtain ⟨o1, o2⟩ := baseBlock_clean net.bc net.M net.orifices m.O hm.O hm.o hl.o
  obtain ⟨w1, w2⟩ := baseBlock_clean net.bc net.M net.weirs m.W hm.W hm.w hl.w
  obtain ⟨p1, p2⟩ := baseBlock_clean net.bc net.M net.pumps m.P hm.P hm.p hl.p
  refine ⟨⟨⟨fun r c hrc h => ?_⟩, o1, w1, p1⟩, o2, w2, p2⟩
  change baseA net dt m.A r c = 0
  rw [baseA_eq net dt m.A hm.A hl.l r c (Or.inr hrc)]
  exact blockSpec_off _ _ _ _ _ _ _ _ _ _ hrc h

omit [LinearOrder K] in
theorem noEnds_of_zero {net : Net K} (hu : net.links.xi_u = fun _ => 0) (hd : net.links.xi_d = fun _ => 0) :
    net.noEnds = net := by
  obtain ⟨M, bc, As, ⟨n, Ju, Jd, au, bu, cu, ad, bd, cd, xu, xd⟩, o, w, p⟩ := net
  subst hu hd
  rfl

omit [LinearOrder K] in
/-- **C133 (where the classes agree).** Without storage in pipe ends and without elements returning to where they
start, both classes solve the same equations for the heads, provided the compiled class is given the heads the other
one takes: those of the last iteration. -/
theorem C133_same_partial (net : Net K) (dt : K) (m m' : Mats K) (hm : CleanBase net m) (hm' : CleanMats net m')
    (hl : NoLoops net) (hu : net.links.xi_u = fun _ => 0) (hd : net.links.xi_d = fun _ => 0)
    (H Q0 Hbc x : ℕ → K) :
    Solves net.M (systemMatrix net (baseMats net dt m)) (baseB net dt H Q0 Hbc) x ↔
      Solves net.M (systemMatrix net (assembleMats net dt m')) (assembleB net dt H Q0 Hbc) x := by
  have hn := noEnds_of_zero hu hd
  rw [baseB_eq, hn]
  unfold Solves
  refine forall_congr' fun i => forall_congr' fun hi => ?_
  have : ∀ j, systemMatrix net (baseMats net dt m) i j = systemMatrix net (assembleMats net dt m') i j := by
    intro j
    have := base_system_eq net dt m m' hm hm' hl i j hi
    rwa [hn] at this
  simp only [this]

omit [LinearOrder K] in
/-- **C133 (the equations of the pure-Python class).** Its system says: fixed heads are prescribed, and at every other
superjunction the storage gained since the *last iteration*, without that of the pipe ends, is what flows in. -/
theorem C133_balance_partial (net : Net K) (dt : K) (m : Mats K) (hm : CleanBase net m) (hl : NoLoops net)
    (hw : Wired net) (H Q0 Hbc x : ℕ → K) :
    Solves net.M (systemMatrix net (baseMats net dt m)) (baseB net dt H Q0 Hbc) x ↔
      ∀ i, i < net.M → (net.bc i = true → x i = Hbc i) ∧
        (net.bc i = false → net.As i / dt * (x i - H i)
          = Q0 i + net.links.inflow x i + net.orifices.inflow x i + net.weirs.inflow x i + net.pumps.inflow x i) := by
  have hm2 : CleanMats net.noEnds m := ⟨⟨hm.A.off⟩, hm.O, hm.W, hm.P⟩
  have hw2 : Wired net.noEnds := ⟨hw.lu, hw.ld, hw.ou, hw.od, hw.wu, hw.wd, hw.pu, hw.pd⟩
  have h := solves_iff net.noEnds dt m hm2 hw2 H Q0 Hbc x
  rw [← baseB_eq] at h
  have e : Solves net.M (systemMatrix net (baseMats net dt m)) (baseB net dt H Q0 Hbc) x ↔
      Solves net.noEnds.M (systemMatrix net.noEnds (assembleMats net.noEnds dt m)) (baseB net dt H Q0 Hbc) x := by
    unfold Solves
    refine forall_congr' fun i => forall_congr' fun hi => ?_
    simp only [base_system_eq net dt m m hm hm.toCleanMats hl i _ hi]
    rfl
  rw [e, h]
  refine forall_congr' fun i => forall_congr' fun hi => and_congr Iff.rfl ?_
  refine forall_congr' fun hb => ?_
  unfold Balanced
  rw [noEnds_xiSum, add_zero]
  rfl

omit [LinearOrder K] in
/-- **C133 fails when a step is iterated**: heads the iteration of the pure-Python class leaves unchanged are those of
a steady state — inflows and outflows balance at every free superjunction, whatever its surface, the time step and the
heads the step started from. -/
theorem C133_iterated_steady (net : Net K) (dt : K) (m : Mats K) (hm : CleanBase net m) (hl : NoLoops net)
    (hw : Wired net) (Q0 Hbc x : ℕ → K) :
    Solves net.M (systemMatrix net (baseMats net dt m)) (baseB net dt x Q0 Hbc) x ↔
      ∀ i, i < net.M → (net.bc i = true → x i = Hbc i) ∧
        (net.bc i = false →
          Q0 i + net.links.inflow x i + net.orifices.inflow x i + net.weirs.inflow x i + net.pumps.inflow x i = 0) := by
  rw [C133_balance_partial net dt m hm hl hw]
  refine forall_congr' fun i => forall_congr' fun hi => and_congr Iff.rfl (forall_congr' fun hb => ?_)
  rw [sub_self, mul_zero]
  exact eq_comm

omit [LinearOrder K] in
/-- **C133 fails for pipe ends that hold water**: the two classes get the same heads from the same state only if the
head of every such superjunction stays as it was. -/
theorem C133_pipe_ends (net : Net K) (dt : K) (m m' : Mats K) (hm : CleanBase net m) (hm' : CleanMats net m')
    (hl : NoLoops net) (hw : Wired net) (H Q0 Hbc x : ℕ → K)
    (h1 : Solves net.M (systemMatrix net (baseMats net dt m)) (baseB net dt H Q0 Hbc) x) (i : ℕ) :
    Solves net.M (systemMatrix net (assembleMats net dt m')) (assembleB net dt H Q0 Hbc) x →
      i < net.M → net.bc i = false → net.links.xiSum i ≠ 0 → x i = H i := by
  intro h2 hi hb hx
  have e1 := ((C133_balance_partial net dt m hm hl hw H Q0 Hbc x).mp h1 i hi).2 hb
  have e2 := ((solves_iff net dt m' hm' hw H Q0 Hbc x).mp h2 i hi).2 hb
  unfold Balanced at e2
  have : net.links.xiSum i * (x i - H i) = 0 := by linear_combination e2 - e1
  exact sub_eq_zero.mp ((mul_eq_zero.mp this).resolve_left hx)

omit [LinearOrder K] in
/-- **C133 fails for a superlink that returns to its superjunction**: its diagonal entry overwrites the one of the
superjunction, which then depends neither on the surface, nor on the time step, nor on any other superlink. -/
theorem C133_loop (net : Net K) (dt : K) (X : ℕ → ℕ → K) (r : ℕ) (hb : net.bc r = false)
    (h : ∃ k, k < net.links.n ∧ net.links.Ju k = r ∧ net.links.Jd k = r) :
    baseA net dt X r r = ∑ k ∈ Finset.range net.links.n,
      (if net.links.Ju k = r ∧ net.links.Jd k = r then net.links.beta_u k - net.links.alpha_d k else 0) := by
  classical
  obtain ⟨k0, hk0, h1, h2⟩ := h
  unfold baseA
  simp only [offDiagBase_apply, hb, Bool.false_eq_true, if_false]
  have hp : Pattern net.links.Ju net.links.Jd net.links.n r r := ⟨k0, hk0, Or.inl ⟨h1, h2⟩⟩
  rw [if_pos hp, zero_add, ← Finset.sum_sub_distrib]
  refine Finset.sum_congr rfl fun k _ => ?_
  by_cases a : net.links.Ju k = r <;> by_cases b : net.links.Jd k = r <;> simp [a, b]

/-- **C133 (lower limit of the heads).** The limits agree exactly for heads that are at least `min_depth` above the
invert: below, the pure-Python class keeps `min_depth` of water. -/
theorem C133_floor {K : Type*} [Field K] [LinearOrder K] [IsStrictOrderedRing K] (z maxd : ℕ → K) (mn : K)
    (x : ℕ → K) (i : ℕ) (h0 : 0 < mn) (h1 : mn < maxd i) :
    clipHeadBase z maxd mn x i = clipHead z maxd x i ↔ z i + mn ≤ x i := by
  unfold clipHeadBase clipHead
  constructor
  · intro h
    by_contra hlt
    have hlt := lt_of_not_ge hlt
    rw [max_eq_right hlt.le, min_eq_left (by linarith)] at h
    have : max (x i) (z i) < z i + mn := max_lt hlt (by linarith)
    have h2 := min_le_left (max (x i) (z i)) (z i + maxd i)
    rw [← h] at h2
    linarith
  · intro h
    rw [max_eq_left h, max_eq_left (by linarith)]

/-! ### Non-vacuity -/

omit [LinearOrder K] in
theorem cleanBase_zero (net : Net K) :
    CleanBase net ⟨fun _ _ => 0, fun _ _ => 0, fun _ _ => 0, fun _ _ => 0⟩ :=
  ⟨cleanMats_zero net, fun _ _ => rfl, fun _ _ => rfl, fun _ _ => rfl⟩

/-- One superjunction draining into a fixed head through a superlink, with water in its pipe ends. -/
def exDrain : Net ℚ where
  M := 2
  bc := fun i => i == 1
  As := fun _ => 2
  links := { n := 1, Ju := fun _ => 0, Jd := fun _ => 1, alpha_u := fun _ => 1, beta_u := fun _ => -1,
             chi_u := fun _ => 0, alpha_d := fun _ => 1, beta_d := fun _ => -1, chi_d := fun _ => 0,
             xi_u := fun _ => 1, xi_d := fun _ => 1 }
  orifices := { n := 0, Ju := fun _ => 0, Jd := fun _ => 0, alpha := fun _ => 0, beta := fun _ => 0, chi := fun _ => 0 }
  weirs := { n := 0, Ju := fun _ => 0, Jd := fun _ => 0, alpha := fun _ => 0, beta := fun _ => 0, chi := fun _ => 0 }
  pumps := { n := 0, Ju := fun _ => 0, Jd := fun _ => 0, alpha := fun _ => 0, beta := fun _ => 0, chi := fun _ => 0 }

theorem exDrain_wired : NoLoops exDrain ∧ Wired exDrain := by
  constructor <;> constructor <;> intro k hk <;> simp [exDrain] at *

/-- From head 3 above a fixed head 0 the pure-Python class falls to 2 in one iteration, and to the fixed head 0
when the step is iterated to convergence; the compiled class falls to 9/4 either way. -/
example : let m : Mats ℚ := ⟨fun _ _ => 0, fun _ _ => 0, fun _ _ => 0, fun _ _ => 0⟩
    Solves 2 (systemMatrix exDrain (baseMats exDrain 1 m))
      (baseB exDrain 1 (fun i => if i = 0 then 3 else 0) (fun _ => 0) (fun _ => 0)) (fun i => if i = 0 then 2 else 0) ∧
    Solves 2 (systemMatrix exDrain (baseMats exDrain 1 m))
      (baseB exDrain 1 (fun _ => 0) (fun _ => 0) (fun _ => 0)) (fun _ => 0) ∧
    Solves 2 (systemMatrix exDrain (assembleMats exDrain 1 m))
      (assembleB exDrain 1 (fun i => if i = 0 then 3 else 0) (fun _ => 0) (fun _ => 0))
      (fun i => if i = 0 then 9 / 4 else 0) := by
  intro m
  have hc : CleanBase exDrain m := cleanBase_zero exDrain
  refine ⟨(C133_balance_partial exDrain 1 m hc exDrain_wired.1 exDrain_wired.2 _ _ _ _).mpr ?_,
    (C133_balance_partial exDrain 1 m hc exDrain_wired.1 exDrain_wired.2 _ _ _ _).mpr ?_,
    (solves_iff exDrain 1 m hc.toCleanMats exDrain_wired.2 _ _ _ _).mpr ?_⟩ <;>
  · intro i hi
    have : i = 0 ∨ i = 1 := by simp [exDrain] at hi; omega
    rcases this with rfl | rfl <;>
      simp [exDrain, Balanced, Links.xiSum, Links.inflow, Links.Qu, Links.Qd, Ctrls.inflow] <;> norm_num

end Pipedream.Network
