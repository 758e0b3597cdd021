import Verif.NetworkLemmas
import Verif.MMatrix

/-!
# Properties of the network head equations: C06, C07, C08, C11, C12, C15, C52
-/

namespace Pipedream.Network

variable {K : Type*} [Field K] [LinearOrder K]

/-! ### Specification -/

/-- Flow of a superlink into its upstream end, as a linear function of the heads
(`solve_superlink_flows`, superlink.py 2965–2985). -/
def Links.Qu (L : Links K) (H : ℕ → K) (k : ℕ) : K :=
  L.alpha_u k * H (L.Ju k) + L.beta_u k * H (L.Jd k) + L.chi_u k

/-- Flow of a superlink out of its downstream end. -/
def Links.Qd (L : Links K) (H : ℕ → K) (k : ℕ) : K :=
  L.alpha_d k * H (L.Ju k) + L.beta_d k * H (L.Jd k) + L.chi_d k

/-- Linearised flow of a control. -/
def Ctrls.Q (C : Ctrls K) (H : ℕ → K) (k : ℕ) : K :=
  C.alpha k * H (C.Ju k) + C.beta k * H (C.Jd k) + C.chi k

/-- Net flow of the superlinks into superjunction `i`. -/
def Links.inflow (L : Links K) (H : ℕ → K) (i : ℕ) : K :=
  ∑ k ∈ Finset.range L.n, ((if L.Jd k = i then L.Qd H k else 0) - (if L.Ju k = i then L.Qu H k else 0))

/-- Net flow of controls into superjunction `i`. -/
def Ctrls.inflow (C : Ctrls K) (H : ℕ → K) (i : ℕ) : K :=
  ∑ k ∈ Finset.range C.n, ((if C.Jd k = i then C.Q H k else 0) - (if C.Ju k = i then C.Q H k else 0))

/-- Pipe-end storage attached to superjunction `i` (area per time). -/
def Links.xiSum (L : Links K) (i : ℕ) : K :=
  ∑ k ∈ Finset.range L.n, ((if L.Ju k = i then L.xi_u k else 0) + (if L.Jd k = i then L.xi_d k else 0))

/-- All element ends are superjunctions of the network. -/
structure Wired (net : Net K) : Prop where
  lu : ∀ k, k < net.links.n → net.links.Ju k < net.M
  ld : ∀ k, k < net.links.n → net.links.Jd k < net.M
  ou : ∀ k, k < net.orifices.n → net.orifices.Ju k < net.M
  od : ∀ k, k < net.orifices.n → net.orifices.Jd k < net.M
  wu : ∀ k, k < net.weirs.n → net.weirs.Ju k < net.M
  wd : ∀ k, k < net.weirs.n → net.weirs.Jd k < net.M
  pu : ∀ k, k < net.pumps.n → net.pumps.Ju k < net.M
  pd : ∀ k, k < net.pumps.n → net.pumps.Jd k < net.M

/-- What earlier assemblies of the same network can leave behind in a matrix: off-diagonal entries only
at the positions of its elements and never in fixed-head rows; a block without elements is untouched. -/
structure Clean (bc : ℕ → Bool) (Ju Jd : ℕ → ℕ) (n : ℕ) (X : ℕ → ℕ → K) : Prop where
  off : ∀ r c, r ≠ c → (bc r = true ∨ ¬ Pattern Ju Jd n r c) → X r c = 0
  empty : n = 0 → ∀ r, X r r = 0

/-- Pattern part only (superlink block, whose diagonal is always rewritten). -/
structure CleanA (bc : ℕ → Bool) (Ju Jd : ℕ → ℕ) (n : ℕ) (X : ℕ → ℕ → K) : Prop where
  off : ∀ r c, r ≠ c → (bc r = true ∨ ¬ Pattern Ju Jd n r c) → X r c = 0

structure CleanMats (net : Net K) (m : Mats K) : Prop where
  A : CleanA net.bc net.links.Ju net.links.Jd net.links.n m.A
  O : Clean net.bc net.orifices.Ju net.orifices.Jd net.orifices.n m.O
  W : Clean net.bc net.weirs.Ju net.weirs.Jd net.weirs.n m.W
  P : Clean net.bc net.pumps.Ju net.pumps.Jd net.pumps.n m.P

omit [LinearOrder K] in
/-- The matrices allocated by the constructor (all zero) are clean. -/
theorem cleanMats_zero (net : Net K) :
    CleanMats net ⟨fun _ _ => 0, fun _ _ => 0, fun _ _ => 0, fun _ _ => 0⟩ :=
  ⟨⟨fun _ _ _ _ => rfl⟩, ⟨fun _ _ _ _ => rfl, fun _ _ => rfl⟩, ⟨fun _ _ _ _ => rfl, fun _ _ => rfl⟩,
    ⟨fun _ _ _ _ => rfl, fun _ _ => rfl⟩⟩

/-- Closed form of a block. -/
def blockSpec (bc : ℕ → Bool) (d0 : K) (F : ℕ → K) (Ju Jd : ℕ → ℕ) (bu ad : ℕ → K) (n : ℕ) (r c : ℕ) : K :=
  if bc r then (if r = c then d0 else 0)
  else (if r = c then F r else 0) + ∑ k ∈ Finset.range n, (if Ju k = r ∧ Jd k = c then bu k else 0)
        - ∑ k ∈ Finset.range n, (if Jd k = r ∧ Ju k = c then ad k else 0)

omit [LinearOrder K] in
theorem block_eq (bc : ℕ → Bool) (d0 : K) (F : ℕ → K) (Ju Jd : ℕ → ℕ) (bu ad : ℕ → K) (n M : ℕ)
    (X : ℕ → ℕ → K) (hX : ∀ r c, r ≠ c → (bc r = true ∨ ¬ Pattern Ju Jd n r c) → X r c = 0) (r c : ℕ)
    (hr : r < M ∨ r ≠ c) :
    addOffDiag bc Ju Jd bu ad n (setDiag bc d0 F M (clearOffDiagonals bc Ju Jd n X)) r c
      = blockSpec bc d0 F Ju Jd bu ad n r c := by
  rw [addOffDiag_apply, setDiag_apply, blockSpec]
  by_cases hrc : r = c
  · have hrM : r < M := hr.resolve_right (fun h => h hrc)
    subst hrc
    by_cases hb : bc r = true <;> simp [hb, hrM]
  · have hz : clearOffDiagonals bc Ju Jd n X r c = 0 := by
      by_cases hb : bc r = true
      · rw [clear_keep _ _ _ _ _ _ _ (Or.inl hb)]; exact hX r c hrc (Or.inl hb)
      · by_cases hp : Pattern Ju Jd n r c
        · exact clear_zero _ _ _ _ _ _ _ (by simpa using hb) hp
        · rw [clear_keep _ _ _ _ _ _ _ (Or.inr hp)]; exact hX r c hrc (Or.inr hp)
    by_cases hb : bc r = true <;> simp [hb, hrc, hz]

omit [LinearOrder K] in
theorem blockSpec_off (bc : ℕ → Bool) (d0 : K) (F : ℕ → K) (Ju Jd : ℕ → ℕ) (bu ad : ℕ → K) (n : ℕ) (r c : ℕ)
    (hrc : r ≠ c) (h : bc r = true ∨ ¬ Pattern Ju Jd n r c) : blockSpec bc d0 F Ju Jd bu ad n r c = 0 := by
  rw [blockSpec]
  by_cases hb : bc r = true
  · simp [hb, hrc]
  · have hp := h.resolve_left hb
    simp only [hb, hrc, Bool.false_eq_true, if_false, zero_add]
    rw [Finset.sum_eq_zero, Finset.sum_eq_zero]
    · simp
    · intro k hk
      rw [if_neg]
      exact fun h => hp ⟨k, Finset.mem_range.mp hk, Or.inr h⟩
    · intro k hk
      rw [if_neg]
      exact fun h => hp ⟨k, Finset.mem_range.mp hk, Or.inl h⟩

/-- Diagonal of the superlink block. -/
def Fdiag (net : Net K) (dt : K) (i : ℕ) : K :=
  net.As i / dt + ∑ k ∈ Finset.range net.links.n,
    ((if net.links.Ju k = i then net.links.alpha_u k + net.links.xi_u k else 0) +
     (if net.links.Jd k = i then -net.links.beta_d k + net.links.xi_d k else 0))

/-- Diagonal of a control block. -/
def Cdiag (C : Ctrls K) (i : ℕ) : K :=
  ∑ k ∈ Finset.range C.n, ((if C.Ju k = i then C.alpha k else 0) + (if C.Jd k = i then -C.beta k else 0))

def specA (net : Net K) (dt : K) : ℕ → ℕ → K :=
  blockSpec net.bc 1 (Fdiag net dt) net.links.Ju net.links.Jd net.links.beta_u net.links.alpha_d net.links.n

def specC (bc : ℕ → Bool) (C : Ctrls K) : ℕ → ℕ → K :=
  blockSpec bc 0 (Cdiag C) C.Ju C.Jd C.beta C.alpha C.n

/-- Specification of the whole system matrix. -/
def specL (net : Net K) (dt : K) (i j : ℕ) : K :=
  specA net dt i j + specC net.bc net.orifices i j + specC net.bc net.weirs i j + specC net.bc net.pumps i j

omit [LinearOrder K] in
theorem createA_eq (net : Net K) (dt : K) (X : ℕ → ℕ → K)
    (hX : CleanA net.bc net.links.Ju net.links.Jd net.links.n X) (r c : ℕ) (hr : r < net.M ∨ r ≠ c) :
    createA net dt (clearOffDiagonals net.bc net.links.Ju net.links.Jd net.links.n X) r c
      = specA net dt r c := by
  unfold createA specA
  have hF : (fun i => addAt (addAt (addAt (addAt (fun _ => (0:K)) net.links.Ju net.links.alpha_u net.links.n)
      net.links.Jd (fun k => -net.links.beta_d k) net.links.n) net.links.Ju net.links.xi_u net.links.n)
      net.links.Jd net.links.xi_d net.links.n i + net.As i / dt) = Fdiag net dt := by
    funext i
    simp only [addAt_apply, Fdiag, zero_add]
    rw [add_comm, ← Finset.sum_add_distrib, ← Finset.sum_add_distrib, ← Finset.sum_add_distrib]
    congr 1
    apply Finset.sum_congr rfl
    intro k _
    split_ifs <;> ring
  simp only [hF]
  exact block_eq _ _ _ _ _ _ _ _ _ _ hX.off r c hr

omit [LinearOrder K] in
theorem ctrlBlock_eq (bc : ℕ → Bool) (M : ℕ) (C : Ctrls K) (X : ℕ → ℕ → K)
    (hX : Clean bc C.Ju C.Jd C.n X) (r c : ℕ) (hr : r < M ∨ r ≠ c) :
    ctrlBlock bc M C X r c = specC bc C r c := by
  unfold ctrlBlock
  by_cases h0 : C.n = 0
  · have hn : ¬ Pattern C.Ju C.Jd C.n r c := by rintro ⟨k, hk, -⟩; omega
    rw [if_pos h0]
    by_cases hrc : r = c
    · subst hrc; rw [hX.empty h0]; simp [specC, blockSpec, Cdiag, h0]
    · rw [hX.off r c hrc (Or.inr hn), specC, blockSpec_off _ _ _ _ _ _ _ _ _ _ hrc (Or.inr hn)]
  · rw [if_neg h0]
    unfold createOWP specC
    have hF : addAt (addAt (fun _ => (0:K)) C.Ju C.alpha C.n) C.Jd (fun k => -C.beta k) C.n = Cdiag C := by
      funext i
      simp only [addAt_apply, Cdiag, zero_add]
      rw [← Finset.sum_add_distrib]
    simp only [hF]
    exact block_eq _ _ _ _ _ _ _ _ _ _ hX.off r c hr

/-! ### C11 -/

omit [LinearOrder K] in
/-- **C11.** Reassembling over what any earlier assembly left gives the specified matrix, which mentions
no old data; and the result can again be reassembled. -/
theorem C11_no_stale_coefficients (net : Net K) (dt : K) (m : Mats K) (hm : CleanMats net m) :
    (∀ r c, r < net.M → systemMatrix net (assembleMats net dt m) r c = specL net dt r c) ∧
    CleanMats net (assembleMats net dt m) := by
  constructor
  · intro r c hr
    unfold systemMatrix
    have eA := createA_eq net dt m.A hm.A r c (Or.inl hr)
    have eO := ctrlBlock_eq net.bc net.M net.orifices m.O hm.O r c (Or.inl hr)
    have eW := ctrlBlock_eq net.bc net.M net.weirs m.W hm.W r c (Or.inl hr)
    have eP := ctrlBlock_eq net.bc net.M net.pumps m.P hm.P r c (Or.inl hr)
    split_ifs with h
    · have ho : net.orifices.n = 0 := by omega
      have hw : net.weirs.n = 0 := by omega
      have hp : net.pumps.n = 0 := by omega
      have z : ∀ C : Ctrls K, C.n = 0 → specC net.bc C r c = 0 := by
        intro C h0; simp [specC, blockSpec, Cdiag, h0]
      rw [specL, z _ ho, z _ hw, z _ hp]
      simpa [assembleMats] using eA
    · simp only [assembleMats, specL]
      rw [eA, eO, eW, eP]
  · refine ⟨⟨fun r c hrc h => ?_⟩, ⟨fun r c hrc h => ?_, fun h0 r => ?_⟩, ⟨fun r c hrc h => ?_, fun h0 r => ?_⟩,
      ⟨fun r c hrc h => ?_, fun h0 r => ?_⟩⟩
    · simp only [assembleMats]
      rw [createA_eq net dt m.A hm.A r c (Or.inr hrc)]
      exact blockSpec_off _ _ _ _ _ _ _ _ _ _ hrc h
    · simp only [assembleMats]
      rw [ctrlBlock_eq _ _ _ _ hm.O r c (Or.inr hrc)]
      exact blockSpec_off _ _ _ _ _ _ _ _ _ _ hrc h
    · simp only [assembleMats, ctrlBlock, h0, if_true]; exact hm.O.empty h0 r
    · simp only [assembleMats]
      rw [ctrlBlock_eq _ _ _ _ hm.W r c (Or.inr hrc)]
      exact blockSpec_off _ _ _ _ _ _ _ _ _ _ hrc h
    · simp only [assembleMats, ctrlBlock, h0, if_true]; exact hm.W.empty h0 r
    · simp only [assembleMats]
      rw [ctrlBlock_eq _ _ _ _ hm.P r c (Or.inr hrc)]
      exact blockSpec_off _ _ _ _ _ _ _ _ _ _ hrc h
    · simp only [assembleMats, ctrlBlock, h0, if_true]; exact hm.P.empty h0 r

/-- Same wiring (superjunctions, fixed-head mask, element ends); coefficients may differ between steps. -/
structure SameWiring (n1 n2 : Net K) : Prop where
  M : n1.M = n2.M
  bc : n1.bc = n2.bc
  l : n1.links.n = n2.links.n ∧ n1.links.Ju = n2.links.Ju ∧ n1.links.Jd = n2.links.Jd
  o : n1.orifices.n = n2.orifices.n ∧ n1.orifices.Ju = n2.orifices.Ju ∧ n1.orifices.Jd = n2.orifices.Jd
  w : n1.weirs.n = n2.weirs.n ∧ n1.weirs.Ju = n2.weirs.Ju ∧ n1.weirs.Jd = n2.weirs.Jd
  p : n1.pumps.n = n2.pumps.n ∧ n1.pumps.Ju = n2.pumps.Ju ∧ n1.pumps.Jd = n2.pumps.Jd

/-- Matrices after a history of assemblies. -/
def history : List (Net K × K) → Mats K → Mats K
  | [], m => m
  | (net, dt) :: rest, m => history rest (assembleMats net dt m)

omit [LinearOrder K] in
/-- **C11 (histories).** Whatever steps were taken before (any coefficients, any step sizes, any number,
same network), the system matrix of the current step is the one obtained from freshly zeroed matrices. -/
theorem C11_history (net : Net K) (dt : K) (hist : List (Net K × K))
    (hw : ∀ p ∈ hist, SameWiring p.1 net) :
    ∀ r c, r < net.M →
      systemMatrix net (assembleMats net dt (history hist ⟨fun _ _ => 0, fun _ _ => 0, fun _ _ => 0, fun _ _ => 0⟩)) r c
        = systemMatrix net (assembleMats net dt ⟨fun _ _ => 0, fun _ _ => 0, fun _ _ => 0, fun _ _ => 0⟩) r c := by
  have key : ∀ (hist : List (Net K × K)) (m : Mats K), (∀ p ∈ hist, SameWiring p.1 net) → CleanMats net m →
      CleanMats net (history hist m) := by
    intro hist
    induction hist with
    | nil => intro m _ h; exact h
    | cons p rest ih =>
      intro m hw hm
      obtain ⟨n1, d1⟩ := p
      apply ih _ (fun q hq => hw q (List.mem_cons_of_mem _ hq))
      have sw := hw (n1, d1) List.mem_cons_self
      have hm1 : CleanMats n1 m := by
        obtain ⟨hA, hO, hW, hP⟩ := hm
        refine ⟨?_, ?_, ?_, ?_⟩
        · rw [sw.bc, sw.l.1, sw.l.2.1, sw.l.2.2]; exact hA
        · rw [sw.bc, sw.o.1, sw.o.2.1, sw.o.2.2]; exact hO
        · rw [sw.bc, sw.w.1, sw.w.2.1, sw.w.2.2]; exact hW
        · rw [sw.bc, sw.p.1, sw.p.2.1, sw.p.2.2]; exact hP
      obtain ⟨hA, hO, hW, hP⟩ := (C11_no_stale_coefficients n1 d1 m hm1).2
      refine ⟨?_, ?_, ?_, ?_⟩
      · rw [← sw.bc, ← sw.l.1, ← sw.l.2.1, ← sw.l.2.2]; exact hA
      · rw [← sw.bc, ← sw.o.1, ← sw.o.2.1, ← sw.o.2.2]; exact hO
      · rw [← sw.bc, ← sw.w.1, ← sw.w.2.1, ← sw.w.2.2]; exact hW
      · rw [← sw.bc, ← sw.p.1, ← sw.p.2.1, ← sw.p.2.2]; exact hP
  intro r c hr
  rw [(C11_no_stale_coefficients net dt _ (key hist _ hw (cleanMats_zero net))).1 r c hr,
    (C11_no_stale_coefficients net dt _ (cleanMats_zero net)).1 r c hr]

/-! ### Rows as balances -/

omit [LinearOrder K] in
theorem block_row (M n : ℕ) (F : K) (Ju Jd : ℕ → ℕ) (bu ad x : ℕ → K) (i : ℕ) (hi : i < M)
    (hu : ∀ k, k < n → Ju k < M) (hd : ∀ k, k < n → Jd k < M) :
    ∑ j ∈ Finset.range M, ((if i = j then F else 0)
        + ∑ k ∈ Finset.range n, (if Ju k = i ∧ Jd k = j then bu k else 0)
        - ∑ k ∈ Finset.range n, (if Jd k = i ∧ Ju k = j then ad k else 0)) * x j
      = F * x i + ∑ k ∈ Finset.range n, ((if Ju k = i then bu k * x (Jd k) else 0)
          - (if Jd k = i then ad k * x (Ju k) else 0)) := by
  simp only [sub_mul, add_mul, Finset.sum_add_distrib, Finset.sum_sub_distrib, Finset.sum_mul]
  rw [← add_sub_assoc]
  congr 1
  · congr 1
    · simp [hi]
    · rw [Finset.sum_comm]
      apply Finset.sum_congr rfl
      intro k hk
      have := hd k (Finset.mem_range.mp hk)
      by_cases h : Ju k = i <;> simp [h, this]
  · rw [Finset.sum_comm]
    apply Finset.sum_congr rfl
    intro k hk
    have := hu k (Finset.mem_range.mp hk)
    by_cases h : Jd k = i <;> simp [h, this]

omit [LinearOrder K] in
theorem specA_row (net : Net K) (dt : K) (x : ℕ → K) (hw : Wired net) (i : ℕ) (hi : i < net.M)
    (hb : net.bc i = false) :
    ∑ j ∈ Finset.range net.M, specA net dt i j * x j
      = (net.As i / dt + net.links.xiSum i) * x i - net.links.inflow x i
        + ∑ k ∈ Finset.range net.links.n, ((if net.links.Jd k = i then net.links.chi_d k else 0)
          - (if net.links.Ju k = i then net.links.chi_u k else 0)) := by
  simp only [specA, blockSpec, hb, Bool.false_eq_true, if_false]
  rw [block_row net.M net.links.n _ _ _ _ _ _ i hi hw.lu hw.ld]
  simp only [Fdiag, Links.xiSum, Links.inflow, Links.Qu, Links.Qd, add_mul]
  rw [add_assoc, add_sub_assoc, add_assoc]
  congr 1
  rw [Finset.sum_mul, Finset.sum_mul, ← Finset.sum_add_distrib, sub_add_eq_add_sub, ← Finset.sum_add_distrib,
    ← Finset.sum_sub_distrib]
  apply Finset.sum_congr rfl
  intro k _
  by_cases h1 : net.links.Ju k = i <;> by_cases h2 : net.links.Jd k = i <;> simp [h1, h2] <;> ring

omit [LinearOrder K] in
theorem specC_row (bc : ℕ → Bool) (M : ℕ) (C : Ctrls K) (x : ℕ → K) (hu : ∀ k, k < C.n → C.Ju k < M)
    (hd : ∀ k, k < C.n → C.Jd k < M) (i : ℕ) (hi : i < M) (hb : bc i = false) :
    ∑ j ∈ Finset.range M, specC bc C i j * x j = -C.inflow x i
        + ∑ k ∈ Finset.range C.n, ((if C.Jd k = i then C.chi k else 0) - (if C.Ju k = i then C.chi k else 0)) := by
  simp only [specC, blockSpec, hb, Bool.false_eq_true, if_false]
  rw [block_row M C.n _ _ _ _ _ _ i hi hu hd]
  simp only [Cdiag, Ctrls.inflow, Ctrls.Q]
  rw [Finset.sum_mul, ← Finset.sum_add_distrib, neg_add_eq_sub, ← Finset.sum_sub_distrib]
  apply Finset.sum_congr rfl
  intro k _
  by_cases h1 : C.Ju k = i <;> by_cases h2 : C.Jd k = i <;> simp [h1, h2] <;> ring

omit [LinearOrder K] in
theorem ctrlD_apply (C : Ctrls K) (D : ℕ → K) (i : ℕ) : ctrlD C D i
    = D i + ∑ k ∈ Finset.range C.n, ((if C.Jd k = i then C.chi k else 0) - (if C.Ju k = i then C.chi k else 0)) := by
  unfold ctrlD
  split_ifs with h
  · simp [h]
  · rw [addAt_apply, addAt_apply, add_assoc, ← Finset.sum_add_distrib]
    congr 1
    apply Finset.sum_congr rfl
    intro k _
    by_cases h1 : C.Ju k = i <;> by_cases h2 : C.Jd k = i <;> simp [h1, h2]

omit [LinearOrder K] in
theorem assembleD_apply (net : Net K) (Hp : ℕ → K) (i : ℕ) : assembleD net Hp i
    = net.links.xiSum i * Hp i
      + ∑ k ∈ Finset.range net.links.n, ((if net.links.Jd k = i then net.links.chi_d k else 0)
          - (if net.links.Ju k = i then net.links.chi_u k else 0))
      + ∑ k ∈ Finset.range net.orifices.n, ((if net.orifices.Jd k = i then net.orifices.chi k else 0)
          - (if net.orifices.Ju k = i then net.orifices.chi k else 0))
      + ∑ k ∈ Finset.range net.weirs.n, ((if net.weirs.Jd k = i then net.weirs.chi k else 0)
          - (if net.weirs.Ju k = i then net.weirs.chi k else 0))
      + ∑ k ∈ Finset.range net.pumps.n, ((if net.pumps.Jd k = i then net.pumps.chi k else 0)
          - (if net.pumps.Ju k = i then net.pumps.chi k else 0)) := by
  unfold assembleD
  simp only [ctrlD_apply]
  congr 3
  simp only [addAt_apply, zero_add, Links.xiSum]
  rw [Finset.sum_mul, ← Finset.sum_add_distrib, ← Finset.sum_add_distrib, ← Finset.sum_add_distrib,
    ← Finset.sum_add_distrib]
  apply Finset.sum_congr rfl
  intro k _
  by_cases h1 : net.links.Ju k = i <;> by_cases h2 : net.links.Jd k = i <;> simp [h1, h2] <;> ring

/-- The volume balance of a free superjunction (specification): rate of storage in the superjunction and
in the attached pipe ends equals all inflows. -/
def Balanced (net : Net K) (dt : K) (Hprev Q0 H : ℕ → K) (i : ℕ) : Prop :=
  (net.As i / dt + net.links.xiSum i) * (H i - Hprev i)
    = Q0 i + net.links.inflow H i + net.orifices.inflow H i + net.weirs.inflow H i + net.pumps.inflow H i

omit [LinearOrder K] in
/-- The assembled system says exactly: fixed heads are prescribed, every other superjunction balances. -/
theorem solves_iff (net : Net K) (dt : K) (m : Mats K) (hm : CleanMats net m) (hw : Wired net)
    (Hprev Q0 Hbc x : ℕ → K) :
    Solves net.M (systemMatrix net (assembleMats net dt m)) (assembleB net dt Hprev Q0 Hbc) x ↔
      ∀ i, i < net.M → (net.bc i = true → x i = Hbc i) ∧
        (net.bc i = false → Balanced net dt Hprev Q0 x i) := by
  unfold Solves
  apply forall_congr'; intro i
  apply forall_congr'; intro hi
  rw [Finset.sum_congr rfl (fun j _ => by
    rw [(C11_no_stale_coefficients net dt m hm).1 i j hi])]
  by_cases hb : net.bc i = true
  · have : ∑ j ∈ Finset.range net.M, specL net dt i j * x j = x i := by
      simp [specL, specA, specC, blockSpec, hb, hi]
    rw [this]; simp [assembleB, hb]
  · have hb' : net.bc i = false := by simpa using hb
    simp only [hb', assembleB, Bool.false_eq_true, if_false, false_imp_iff, true_and, forall_const]
    have e : ∑ j ∈ Finset.range net.M, specL net dt i j * x j
        = ∑ j ∈ Finset.range net.M, specA net dt i j * x j
          + ∑ j ∈ Finset.range net.M, specC net.bc net.orifices i j * x j
          + ∑ j ∈ Finset.range net.M, specC net.bc net.weirs i j * x j
          + ∑ j ∈ Finset.range net.M, specC net.bc net.pumps i j * x j := by
      simp only [specL, add_mul, Finset.sum_add_distrib]
    rw [e, specA_row net dt x hw i hi hb', specC_row _ _ _ _ hw.ou hw.od i hi hb',
      specC_row _ _ _ _ hw.wu hw.wd i hi hb', specC_row _ _ _ _ hw.pu hw.pd i hi hb', assembleD_apply, Balanced]
    constructor
    · intro h; linear_combination h
    · intro h; linear_combination h

/-! ### C07, C08 -/

/-- **C07.** If no head is clipped, the heads after the solve satisfy the volume balance at every
superjunction without a fixed head: storage gain = external inflow + superlinks in − out + controls
in − out, all flows being the ones evaluated at the new heads. -/
theorem C07_mass_balance (net : Net K) (dt : K) (m : Mats K) (hm : CleanMats net m) (hw : Wired net)
    (Hprev Q0 Hbc z maxd x : ℕ → K)
    (hx : Solves net.M (systemMatrix net (assembleMats net dt m)) (assembleB net dt Hprev Q0 Hbc) x)
    (hclip : ∀ j, j < net.M → z j ≤ x j ∧ x j ≤ z j + maxd j) (i : ℕ) (hi : i < net.M)
    (hb : net.bc i = false) : Balanced net dt Hprev Q0 (clipHead z maxd x) i := by
  have hH : ∀ j, j < net.M → clipHead z maxd x j = x j := by
    intro j hj
    simp only [clipHead, max_eq_left (hclip j hj).1, min_eq_left (hclip j hj).2]
  have h := ((solves_iff net dt m hm hw Hprev Q0 Hbc x).mp hx i hi).2 hb
  unfold Balanced at h ⊢
  have hL : net.links.inflow (clipHead z maxd x) i = net.links.inflow x i := by
    apply Finset.sum_congr rfl; intro k hk
    have hk := Finset.mem_range.mp hk
    simp only [Links.Qu, Links.Qd, hH _ (hw.lu k hk), hH _ (hw.ld k hk)]
  have hO : net.orifices.inflow (clipHead z maxd x) i = net.orifices.inflow x i := by
    apply Finset.sum_congr rfl; intro k hk
    have hk := Finset.mem_range.mp hk
    simp only [Ctrls.Q, hH _ (hw.ou k hk), hH _ (hw.od k hk)]
  have hW : net.weirs.inflow (clipHead z maxd x) i = net.weirs.inflow x i := by
    apply Finset.sum_congr rfl; intro k hk
    have hk := Finset.mem_range.mp hk
    simp only [Ctrls.Q, hH _ (hw.wu k hk), hH _ (hw.wd k hk)]
  have hP : net.pumps.inflow (clipHead z maxd x) i = net.pumps.inflow x i := by
    apply Finset.sum_congr rfl; intro k hk
    have hk := Finset.mem_range.mp hk
    simp only [Ctrls.Q, hH _ (hw.pu k hk), hH _ (hw.pd k hk)]
  rw [hL, hO, hW, hP, hH i hi]; exact h

/-- **C08.** A fixed-head superjunction takes the prescribed head, limited to `[z, z + max_depth]`. -/
theorem C08_fixed_heads (net : Net K) (dt : K) (m : Mats K) (hm : CleanMats net m) (hw : Wired net)
    (Hprev Q0 Hbc z maxd x : ℕ → K)
    (hx : Solves net.M (systemMatrix net (assembleMats net dt m)) (assembleB net dt Hprev Q0 Hbc) x)
    (i : ℕ) (hi : i < net.M) (hb : net.bc i = true) :
    clipHead z maxd x i = min (max (Hbc i) (z i)) (z i + maxd i) := by
  rw [clipHead, ((solves_iff net dt m hm hw Hprev Q0 Hbc x).mp hx i hi).1 hb]

omit [Field K] in
/-- **C09 (one solve).** Whatever the solver returns, the head lies between invert and invert + max_depth. -/
theorem C09_clip_bounds {K : Type*} [Field K] [LinearOrder K] [IsStrictOrderedRing K]
    (z maxd x : ℕ → K) (i : ℕ) (h : 0 ≤ maxd i) :
    z i ≤ clipHead z maxd x i ∧ clipHead z maxd x i ≤ z i + maxd i :=
  ⟨le_min (le_max_right _ _) (by linarith), min_le_right _ _⟩

/-! ### C06, C15 -/

variable [IsStrictOrderedRing K]

/-- Signs of the coefficients, established by C19 (superlinks) and by `orificeLin_signed`,
`weirLin_signed`, `pumpLin_signed` (controls). -/
structure Signed (net : Net K) : Prop where
  ad : ∀ k, k < net.links.n → 0 ≤ net.links.alpha_d k
  au : ∀ k, k < net.links.n → net.links.alpha_d k ≤ net.links.alpha_u k
  bu : ∀ k, k < net.links.n → net.links.beta_u k ≤ 0
  bd : ∀ k, k < net.links.n → net.links.beta_d k ≤ net.links.beta_u k
  xu : ∀ k, k < net.links.n → 0 ≤ net.links.xi_u k
  xd : ∀ k, k < net.links.n → 0 ≤ net.links.xi_d k
  oa : ∀ k, k < net.orifices.n → 0 ≤ net.orifices.alpha k
  ob : ∀ k, k < net.orifices.n → net.orifices.beta k ≤ 0
  wa : ∀ k, k < net.weirs.n → 0 ≤ net.weirs.alpha k
  wb : ∀ k, k < net.weirs.n → net.weirs.beta k ≤ 0
  pa : ∀ k, k < net.pumps.n → 0 ≤ net.pumps.alpha k
  pb : ∀ k, k < net.pumps.n → net.pumps.beta k ≤ 0
  As : ∀ i, i < net.M → net.bc i = false → 0 < net.As i

theorem block_off (bc : ℕ → Bool) (d0 : K) (F : ℕ → K) (Ju Jd : ℕ → ℕ) (bu ad : ℕ → K) (n : ℕ)
    (hbu : ∀ k, k < n → bu k ≤ 0) (had : ∀ k, k < n → 0 ≤ ad k) (r c : ℕ) (hb : bc r = false) (hrc : r ≠ c) :
    blockSpec bc d0 F Ju Jd bu ad n r c ≤ 0 := by
  simp only [blockSpec, hb, hrc, Bool.false_eq_true, if_false, zero_add]
  have h1 : ∑ k ∈ Finset.range n, (if Ju k = r ∧ Jd k = c then bu k else 0) ≤ 0 := by
    apply Finset.sum_nonpos; intro k hk
    split_ifs
    · exact hbu k (Finset.mem_range.mp hk)
    · exact le_rfl
  have h2 : 0 ≤ ∑ k ∈ Finset.range n, (if Jd k = r ∧ Ju k = c then ad k else 0) := by
    apply Finset.sum_nonneg; intro k hk
    split_ifs
    · exact had k (Finset.mem_range.mp hk)
    · exact le_rfl
  linarith

/-- Column sum of a block over the free rows. -/
theorem block_col (bc : ℕ → Bool) (d0 : K) (F : ℕ → K) (Ju Jd : ℕ → ℕ) (bu ad : ℕ → K) (n M : ℕ)
    (hbu : ∀ k, k < n → bu k ≤ 0) (had : ∀ k, k < n → 0 ≤ ad k)
    (c : ℕ) (hc : c < M) (hb : bc c = false) :
    F c + ∑ k ∈ Finset.range n, ((if Jd k = c then bu k else 0) - (if Ju k = c then ad k else 0))
      ≤ ∑ r ∈ (Finset.range M).filter (fun i => bc i = false), blockSpec bc d0 F Ju Jd bu ad n r c := by
  have e : ∑ r ∈ (Finset.range M).filter (fun i => bc i = false), blockSpec bc d0 F Ju Jd bu ad n r c
      = F c + ∑ k ∈ Finset.range n, ((∑ r ∈ (Finset.range M).filter (fun i => bc i = false),
          if Ju k = r ∧ Jd k = c then bu k else 0) - (∑ r ∈ (Finset.range M).filter (fun i => bc i = false),
          if Jd k = r ∧ Ju k = c then ad k else 0)) := by
    rw [Finset.sum_congr rfl (fun r hr => by
      have : bc r = false := (Finset.mem_filter.mp hr).2
      rw [blockSpec, this, if_neg (by simp)])]
    rw [Finset.sum_sub_distrib, Finset.sum_add_distrib, Finset.sum_comm, Finset.sum_sub_distrib, add_sub_assoc]
    congr 1
    · rw [Finset.sum_ite_eq' _ c]; simp [hc, hb]
    · congr 1; exact Finset.sum_comm
  rw [e]
  gcongr with k hk
  · have hbk := hbu k (Finset.mem_range.mp hk)
    by_cases h : Jd k = c
    · simp only [h, and_true, if_true]
      rw [Finset.sum_ite_eq]
      split_ifs
      · exact le_rfl
      · exact hbk
    · simp [h]
  · have hak := had k (Finset.mem_range.mp hk)
    by_cases h : Ju k = c
    · simp only [h, and_true, if_true]
      rw [Finset.sum_ite_eq]
      split_ifs
      · exact le_rfl
      · exact hak
    · simp [h]

theorem specC_col (bc : ℕ → Bool) (M : ℕ) (C : Ctrls K) (ha : ∀ k, k < C.n → 0 ≤ C.alpha k)
    (hbt : ∀ k, k < C.n → C.beta k ≤ 0) (c : ℕ) (hc : c < M) (hb : bc c = false) :
    0 ≤ ∑ r ∈ (Finset.range M).filter (fun i => bc i = false), specC bc C r c := by
  refine le_trans (le_of_eq ?_) (block_col bc 0 (Cdiag C) C.Ju C.Jd C.beta C.alpha C.n M hbt ha c hc hb)
  rw [Cdiag, ← Finset.sum_add_distrib]
  symm
  apply Finset.sum_eq_zero
  intro k _
  by_cases h1 : C.Ju k = c <;> by_cases h2 : C.Jd k = c <;> simp [h1, h2]
  ring

theorem system_colDom (net : Net K) (dt : K) (hdt : 0 < dt) (m : Mats K) (hm : CleanMats net m)
    (hs : Signed net) : ColDom net.M net.bc (systemMatrix net (assembleMats net dt m)) := by
  have hl := (C11_no_stale_coefficients net dt m hm).1
  refine ⟨fun i hi hb j hj => ?_, fun i hi j hj hb hij => ?_, fun j hj hb => ?_⟩
  · rw [hl i j hi]
    simp [specL, specA, specC, blockSpec, hb]
  · rw [hl i j hi, specL]
    have h1 := block_off net.bc 1 (Fdiag net dt) net.links.Ju net.links.Jd net.links.beta_u net.links.alpha_d
      net.links.n hs.bu hs.ad i j hb hij
    have h2 := block_off net.bc 0 (Cdiag net.orifices) net.orifices.Ju net.orifices.Jd net.orifices.beta
      net.orifices.alpha net.orifices.n hs.ob hs.oa i j hb hij
    have h3 := block_off net.bc 0 (Cdiag net.weirs) net.weirs.Ju net.weirs.Jd net.weirs.beta
      net.weirs.alpha net.weirs.n hs.wb hs.wa i j hb hij
    have h4 := block_off net.bc 0 (Cdiag net.pumps) net.pumps.Ju net.pumps.Jd net.pumps.beta
      net.pumps.alpha net.pumps.n hs.pb hs.pa i j hb hij
    simp only [specA, specC]; linarith
  · rw [Finset.sum_congr rfl (fun i hi => hl i j (Finset.mem_range.mp (Finset.mem_filter.mp hi).1))]
    simp only [specL, Finset.sum_add_distrib]
    have h2 := specC_col net.bc net.M net.orifices hs.oa hs.ob j hj hb
    have h3 := specC_col net.bc net.M net.weirs hs.wa hs.wb j hj hb
    have h4 := specC_col net.bc net.M net.pumps hs.pa hs.pb j hj hb
    have h1 : 0 < ∑ i ∈ (Finset.range net.M).filter (fun i => net.bc i = false), specA net dt i j := by
      refine lt_of_lt_of_le ?_ (block_col net.bc 1 (Fdiag net dt) net.links.Ju net.links.Jd net.links.beta_u
        net.links.alpha_d net.links.n net.M hs.bu hs.ad j hj hb)
      rw [Fdiag, add_assoc, ← Finset.sum_add_distrib]
      have hA : 0 < net.As j / dt := div_pos (hs.As j hj hb) hdt
      apply add_pos_of_pos_of_nonneg hA
      apply Finset.sum_nonneg
      intro k hk
      have hk := Finset.mem_range.mp hk
      have := hs.au k hk; have := hs.bd k hk; have := hs.xu k hk; have := hs.xd k hk
      by_cases h1 : net.links.Ju k = j <;> by_cases h2 : net.links.Jd k = j <;> simp [h1, h2] <;> linarith
    linarith

/-- **C06.** For every network with signed (physical) coefficients, positive storage areas at the free
superjunctions and `dt > 0`, the assembled head equations have exactly one solution for every right-hand
side. Superlinks may be parallel, in series, in loops or self-loops; any subset of heads may be fixed. -/
theorem C06_unique_solution (net : Net K) (dt : K) (hdt : 0 < dt) (m : Mats K) (hm : CleanMats net m)
    (hs : Signed net) (r : ℕ → K) :
    (∃ x, Solves net.M (systemMatrix net (assembleMats net dt m)) r x) ∧
    (∀ x x', Solves net.M (systemMatrix net (assembleMats net dt m)) r x →
      Solves net.M (systemMatrix net (assembleMats net dt m)) r x' → ∀ i, i < net.M → x i = x' i) :=
  ⟨(system_colDom net dt hdt m hm hs).exists r, fun _ _ h h' => (system_colDom net dt hdt m hm hs).unique h h'⟩

/-- **C15.** More inflow, or higher fixed heads, or higher previous heads, never lower any solved head;
the clipped heads inherit it. -/
theorem C15_monotone (net : Net K) (dt : K) (hdt : 0 < dt) (m m' : Mats K) (hm : CleanMats net m)
    (hm' : CleanMats net m') (hs : Signed net) (hw : Wired net)
    {Hp Hp' Q0 Q0' Hbc Hbc' x x' : ℕ → K} (hH : ∀ i, i < net.M → Hp i ≤ Hp' i)
    (hQ : ∀ i, i < net.M → Q0 i ≤ Q0' i) (hB : ∀ i, i < net.M → Hbc i ≤ Hbc' i)
    (hx : Solves net.M (systemMatrix net (assembleMats net dt m)) (assembleB net dt Hp Q0 Hbc) x)
    (hx' : Solves net.M (systemMatrix net (assembleMats net dt m')) (assembleB net dt Hp' Q0' Hbc') x')
    (z maxd : ℕ → K) (i : ℕ) (hi : i < net.M) :
    x i ≤ x' i ∧ clipHead z maxd x i ≤ clipHead z maxd x' i := by
  have hx'' : Solves net.M (systemMatrix net (assembleMats net dt m)) (assembleB net dt Hp' Q0' Hbc') x' := by
    rw [solves_iff net dt m hm hw]; exact (solves_iff net dt m' hm' hw _ _ _ _).mp hx'
  have key : x i ≤ x' i := by
    apply (system_colDom net dt hdt m hm hs).mono hx hx'' _ i hi
    intro j hj
    simp only [assembleB]
    split_ifs with hb
    · exact hB j hj
    · have hb' : net.bc j = false := by simpa using hb
      rw [assembleD_apply, assembleD_apply]
      have h1 : net.As j * Hp j / dt ≤ net.As j * Hp' j / dt :=
        div_le_div_of_nonneg_right (mul_le_mul_of_nonneg_left (hH j hj) (hs.As j hj hb').le) hdt.le
      have hxi : 0 ≤ net.links.xiSum j := by
        apply Finset.sum_nonneg; intro k hk
        have := hs.xu k (Finset.mem_range.mp hk); have := hs.xd k (Finset.mem_range.mp hk)
        split_ifs <;> simp <;> linarith
      have h2 := mul_le_mul_of_nonneg_left (hH j hj) hxi
      have h3 := hQ j hj
      linarith
  exact ⟨key, min_le_min_right _ (max_le_max_right _ key)⟩

/-! ### C52 -/

omit [LinearOrder K] [IsStrictOrderedRing K] in
/-- `A_2` of `_semi_implicit_system` / `state_space_system` (superlink.py 3875, 3903). -/
def A2 (net : Net K) (dt : K) : ℕ → K := fun i => if net.bc i = false then net.As i / dt else 0

omit [LinearOrder K] [IsStrictOrderedRing K] in
/-- **C52.** The exposed state-space system reproduces the step: on every free row
`A_1 H = A_2 H_prev + Q_in + D`, and on fixed rows `A_1` is the unit row and `A_2` is zero. -/
theorem C52_state_space (net : Net K) (dt : K) (m : Mats K) (hm : CleanMats net m)
    (Hprev Q0 Hbc x : ℕ → K)
    (hx : Solves net.M (systemMatrix net (assembleMats net dt m)) (assembleB net dt Hprev Q0 Hbc) x)
    (i : ℕ) (hi : i < net.M) :
    (net.bc i = false → ∑ j ∈ Finset.range net.M, systemMatrix net (assembleMats net dt m) i j * x j
        = A2 net dt i * Hprev i + Q0 i + assembleD net Hprev i) ∧
    (net.bc i = true → (∀ j, j < net.M → systemMatrix net (assembleMats net dt m) i j = if i = j then 1 else 0) ∧
      A2 net dt i = 0) := by
  constructor
  · intro hb
    rw [hx i hi]
    simp [assembleB, hb, A2]
    ring
  · intro hb
    refine ⟨fun j hj => ?_, by simp [A2, hb]⟩
    rw [(C11_no_stale_coefficients net dt m hm).1 i j hi]
    simp [specL, specA, specC, blockSpec, hb]

/-! ### Non-vacuity -/

/-- Two free superjunctions and one fixed head, two parallel superlinks 0→1 and one 1→2, one orifice. -/
def exNet : Net ℚ where
  M := 3
  bc := fun i => i == 2
  As := fun _ => 5
  links := { n := 3, Ju := fun k => if k = 2 then 1 else 0, Jd := fun k => if k = 2 then 2 else 1,
             alpha_u := fun _ => 2, beta_u := fun _ => -1, chi_u := fun _ => 1,
             alpha_d := fun _ => 1, beta_d := fun _ => -2, chi_d := fun _ => 1,
             xi_u := fun _ => 1, xi_d := fun _ => 1 }
  orifices := { n := 1, Ju := fun _ => 0, Jd := fun _ => 2, alpha := fun _ => 1, beta := fun _ => -1, chi := fun _ => 0 }
  weirs := { n := 0, Ju := fun _ => 0, Jd := fun _ => 0, alpha := fun _ => 0, beta := fun _ => 0, chi := fun _ => 0 }
  pumps := { n := 0, Ju := fun _ => 0, Jd := fun _ => 0, alpha := fun _ => 0, beta := fun _ => 0, chi := fun _ => 0 }

example : Signed exNet ∧ Wired exNet := by
  constructor
  · constructor <;> intros <;> norm_num [exNet]
  · constructor <;> intro k hk <;> simp only [exNet] at * <;> first | omega | (split_ifs <;> omega)

example : ∃ x, Solves exNet.M (systemMatrix exNet (assembleMats exNet 1
    ⟨fun _ _ => 0, fun _ _ => 0, fun _ _ => 0, fun _ _ => 0⟩)) (assembleB exNet 1 (fun _ => 1) (fun _ => 0) (fun _ => 2)) x :=
  (C06_unique_solution exNet 1 one_pos _ (cleanMats_zero exNet)
    (by constructor <;> intros <;> norm_num [exNet]) _).1

end Pipedream.Network
