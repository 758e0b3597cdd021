import Verif.RecoverModel
import Verif.NnlsProps
import Verif.QualityAlgebra

/-!
# Link values recovered from the recurrences

Property C123: when a superlink has been solved, its link values are recovered from its junction values.
-/

set_option linter.unusedSectionVars false
set_option linter.unusedVariables false

namespace Pipedream.Recover

open Pipedream.Topology Pipedream.Lsq Pipedream.Nnls

variable {K : Type*} [Field K] [LinearOrder K] [IsStrictOrderedRing K] {t : Tables} {n J L : ℕ → ℕ}

theorem filter_tail (N : ℕ) (f : ℕ → ℕ) :
    ((List.range (N + 1)).filter (fun j => decide (0 < j))).map f = (List.range N).map (fun j => f (j + 1)) := by
  rw [List.range_succ_eq_map, List.filter_cons_of_neg (by simp), List.filter_map, List.map_map]
  have : (List.range N).filter ((fun j => decide (0 < j)) ∘ Nat.succ) = List.range N :=
    List.filter_eq_self.2 fun j _ => by simp
  rw [this]; rfl

theorem notStart_list (O : Ordered t n J L) :
    (List.range t.NI).filter (fun I => !t.isStart I) = (List.range t.NK).flatMap
      (fun k => (List.range (n k)).map (fun j => J k + (j + 1))) := by
  rw [junction_mask O _ (fun k j => decide (0 < j))]
  · exact List.flatMap_congr fun k hk => filter_tail (n k) (fun j => J k + j)
  · intro k hk j hj
    apply bool_eq_decide
    rw [Bool.not_eq_true', ← Bool.not_eq_true, O.isStart hk hj]
    omega

theorem notStart_eq (O : Ordered t n J L) {k i : ℕ} (hk : k < t.NK) (hi : i < n k) :
    notStart t (L k + i) = J k + (i + 1) := by
  unfold notStart compress
  rw [notStart_list O, List.map_id']
  have := (flatMap_getElem? (fun k => (List.range (n k)).map (fun j => J k + (j + 1))) t.NK).2 k hk i
    (by simpa using hi)
  simp only [List.length_map, List.length_range] at this
  rw [List.getD_eq_getElem?_getD, O.L_eq k hk.le, this, List.getElem?_map, List.getElem?_range hi]
  rfl

/-- **C123, hydraulics.** At the depths of the Saint-Venant solution both arrays returned by
`superlink_flow_from_recurrence` are the flows of the solution. -/
theorem C123_flows (O : Ordered t n J L) (a : Arrays K) {k : ℕ} (hk : k < t.NK) {g : K} {co : Sweep.Coef K}
    {T O' : ℕ → K} (ph : Sweep.Physical g co (n k))
    (F : Sweep.FwdRel g co (n k) T (fun j => a.U (J k + j)) (fun j => a.V (J k + j)) (fun j => a.W (J k + j)))
    (B : Sweep.BwdRel g co (n k) O' (fun j => a.X (J k + j)) (fun j => a.Y (J k + j)) (fun j => a.Z (J k + j)))
    {Q h hg : ℕ → K} {Qu Qd : K} (S : Sweep.SaintVenant g co (n k) Q h Qu Qd) (e0 : h 0 = a.hu k)
    (en : h (n k) = a.hd k) (hh : ∀ j, j ≤ n k → hg (J k + j) = h j) :
    ∀ i, i < n k → flowB t a hg (L k + i) = Q i ∧ flowF t a hg (L k + i) = Q i := by
  intro i hi
  have fs := Sweep.fwd_sound F (Sweep.physical_fwdPivots ph F) S i hi
  have bs := Sweep.bwd_sound B (Sweep.physical_bwdPivots ph B) S i hi
  unfold flowB flowF
  rw [O.Ik k hk i hi, O.ki k hk i hi, hh i hi.le, Nat.add_assoc, hh (i + 1) hi, fs, ← e0, ← en]
  rw [fs] at bs
  exact ⟨bs.symm, rfl⟩

/-- **C123, both classes.** The base class, which selects with masks, and the numba class, which goes through
the index of the links, return the same two arrays. -/
theorem C123_flows_twin (O : Ordered t n J L) (a : Arrays K) (hg : ℕ → K) {k i : ℕ} (hk : k < t.NK) (hi : i < n k) :
    baseFlowB t a hg (L k + i) = flowB t a hg (L k + i) ∧ baseFlowF t a hg (L k + i) = flowF t a hg (L k + i) := by
  unfold baseFlowB baseFlowF flowB flowF
  rw [O.Ik k hk i hi, O.ki k hk i hi, notEnd_eq O hk hi, notStart_eq O hk hi, repeatNk_eq O a.hd hk hi,
    repeatNk_eq O a.hu hk hi]
  exact ⟨rfl, rfl⟩

/-- **C123, water quality, what the code returns.** The two arrays, and the two recurrences of the elimination. -/
theorem C123_concentrations_code (O : Ordered t n J L) (a : Arrays K) (c : ℕ → K) {k i : ℕ} (hk : k < t.NK)
    (hi : i < n k) :
    concB t a c (L k + i) = a.Y (J k + i) * a.X (J k + i) + a.Z (J k + i) + c (J k + n k) * c (J k + i) ∧
    concF t a c (L k + i) = a.V (J k + i) * a.U (J k + i) + a.W (J k + i) + c (J k) * c (J k + (i + 1)) := by
  unfold concB concF
  rw [notEnd_eq O hk hi, notStart_eq O hk hi, repeatNk_eq O _ hk hi, repeatNk_eq O _ hk hi, O.fin k hk, O.start k hk]
  exact ⟨rfl, rfl⟩

/-- **C123, water quality.** With the concentrations `cI`, `ci` that solve the transport equations of the
superlink, each array returns the link concentration exactly when an unrelated equation holds. -/
theorem C123_concentrations_iff (O : Ordered t n J L) (a : Arrays K) {k : ℕ} (hk : k < t.NK)
    {q : Quality.QCoef K} {T O' : ℕ → K}
    (F : Quality.FwdRel q (n k) T (fun j => a.U (J k + j)) (fun j => a.V (J k + j)) (fun j => a.W (J k + j)))
    (B : Quality.BwdRel q (n k) O' (fun j => a.X (J k + j)) (fun j => a.Y (J k + j)) (fun j => a.Z (J k + j)))
    (fp : Quality.FwdPiv q (n k) T (fun j => a.U (J k + j))) (bp : Quality.BwdPiv q (n k) O' (fun j => a.X (J k + j)))
    {cI ci : ℕ → K} (S : Quality.Interior q (n k) cI ci) {c : ℕ → K} (hc : ∀ j, j ≤ n k → c (J k + j) = cI j)
    {i : ℕ} (hi : i < n k) :
    (concB t a c (L k + i) = ci i ↔
      (a.X (J k + i) - cI (n k)) * (a.Y (J k + i) - cI i)
        = (1 - cI (n k)) * (a.Y (J k + i) - a.Z (J k + i))) ∧
    (concF t a c (L k + i) = ci i ↔
      (a.U (J k + i) - cI 0) * (a.V (J k + i) - cI (i + 1))
        = (1 - cI 0) * (a.V (J k + i) - a.W (J k + i))) := by
  have fs := Quality.fwd_sound F fp S i hi
  have bs := Quality.bwd_sound B bp S i hi
  obtain ⟨h1, h2⟩ := C123_concentrations_code O a c hk hi
  have hc0 : c (J k) = cI 0 := hc 0 (Nat.zero_le _)
  rw [h1, h2, hc i hi.le, hc (n k) (le_refl _), hc (i + 1) hi, hc0]
  constructor
  · rw [bs]
    constructor <;> intro h <;> linear_combination h
  · rw [fs]
    constructor <;> intro h <;> linear_combination h

/-- **C123 (clean water).** Without contaminant anywhere and without sources the arrays are not zero: they
are coefficients of the recurrences. -/
theorem C123_clean (O : Ordered t n J L) (a : Arrays K) {c : ℕ → K} (hc : ∀ I, c I = 0) {k i : ℕ} (hk : k < t.NK)
    (hi : i < n k) (hY : a.Y (J k + i) = 0) (hV : a.V (J k + i) = 0) :
    concB t a c (L k + i) = a.Z (J k + i) ∧ concF t a c (L k + i) = a.W (J k + i) := by
  obtain ⟨h1, h2⟩ := C123_concentrations_code O a c hk hi
  rw [h1, h2, hY, hV, hc, hc, hc, hc]
  constructor <;> ring

/-- **C123 (specification met by the intended call).** With the arguments of the two functions in their declared
order both arrays would be the link concentrations. -/
theorem C123_intended_partial (O : Ordered t n J L) (a : Arrays K) {k : ℕ} (hk : k < t.NK)
    {q : Quality.QCoef K} {T O' : ℕ → K}
    (F : Quality.FwdRel q (n k) T (fun j => a.U (J k + j)) (fun j => a.V (J k + j)) (fun j => a.W (J k + j)))
    (B : Quality.BwdRel q (n k) O' (fun j => a.X (J k + j)) (fun j => a.Y (J k + j)) (fun j => a.Z (J k + j)))
    (fp : Quality.FwdPiv q (n k) T (fun j => a.U (J k + j))) (bp : Quality.BwdPiv q (n k) O' (fun j => a.X (J k + j)))
    {cI ci : ℕ → K} (S : Quality.Interior q (n k) cI ci) {c : ℕ → K} (hc : ∀ j, j ≤ n k → c (J k + j) = cI j)
    {i : ℕ} (hi : i < n k) :
    Quality.c_i_b (c (notEnd t (L k + i))) (repeatNk t (fun k => c (t.fin k)) (L k + i)) (a.X (notEnd t (L k + i)))
        (a.Y (notEnd t (L k + i))) (a.Z (notEnd t (L k + i))) = ci i ∧
    Quality.c_i_f (c (notStart t (L k + i))) (repeatNk t (fun k => c (t.start k)) (L k + i))
        (a.U (notEnd t (L k + i))) (a.V (notEnd t (L k + i))) (a.W (notEnd t (L k + i))) = ci i := by
  have fs := Quality.fwd_sound F fp S i hi
  have bs := Quality.bwd_sound B bp S i hi
  have hc0 : c (J k) = cI 0 := hc 0 (Nat.zero_le _)
  rw [notEnd_eq O hk hi, notStart_eq O hk hi, repeatNk_eq O _ hk hi, repeatNk_eq O _ hk hi, O.fin k hk, O.start k hk,
    hc i hi.le, hc (n k) (le_refl _), hc (i + 1) hi, hc0, Quality.c_i_b, Quality.c_i_f]
  exact ⟨bs.symm, fs.symm⟩

/-! ### Non-vacuity -/

/-- C123 for the flows of the second superlink of the network `mixed`. -/
example (hg : ℕ → ℚ) (hh : ∀ j, j ≤ 2 → hg (2 + j) = exH j) :
    flowB mixed exArr hg 1 = 2 ∧ flowF mixed exArr hg 2 = 1 :=
  ⟨(C123_flows mixed_ordered exArr (by decide : 1 < mixed.NK) ex_phys ex_fwd ex_bwd ex_sv rfl rfl hh 0 (by norm_num)).1,
   (C123_flows mixed_ordered exArr (by decide : 1 < mixed.NK) ex_phys ex_fwd ex_bwd ex_sv rfl rfl hh 1 (by norm_num)).2⟩

/-- Transport coefficients of the first superlink of `mixed` (one link): the link mixes half of each end. -/
def exQ1 : Quality.QCoef ℚ :=
  ⟨fun _ => -1/2, fun _ => 1, fun _ => -1/2, fun _ => 0, fun _ => 0, fun _ => 1, fun _ => 0, fun _ => 0⟩

/-- The sweep arrays of that superlink. -/
def exArr1 : Arrays ℚ :=
  ⟨fun _ => 1/2, fun _ => 0, fun _ => 1/2, fun _ => 1/2, fun _ => 0, fun _ => 1/2, fun _ => 0, fun _ => 0⟩

theorem ex1_fwd : Quality.FwdRel exQ1 1 (fun _ => 1) (fun j => exArr1.U (0 + j)) (fun j => exArr1.V (0 + j))
    (fun j => exArr1.W (0 + j)) where
  U0 := by norm_num [exQ1, exArr1, Quality.U_1k, safeDivide]
  V0 := by norm_num [exQ1, exArr1, Quality.V_1k, safeDivide]
  W0 := by norm_num [exQ1, exArr1, Quality.W_1k, safeDivide]
  Ts := fun j hj => absurd hj (by omega)
  Us := fun j hj => absurd hj (by omega)
  Vs := fun j hj => absurd hj (by omega)
  Ws := fun j hj => absurd hj (by omega)

/-- **C123 (witness).** Concentration 1 at both ends: the link has concentration 1, the backward array says
`3/2`; and in clean water it says `1/2`. -/
theorem C123_witness : Quality.Interior exQ1 1 (fun _ => 1) (fun _ => 1) ∧
    concB mixed exArr1 (fun _ => 1) 0 = 3/2 ∧ concB mixed exArr1 (fun _ => 0) 0 = 1/2 := by
  refine ⟨⟨fun j _ => by norm_num [exQ1], fun j hj => absurd hj (by omega)⟩, ?_, ?_⟩
  · have h := (C123_concentrations_code mixed_ordered exArr1 (fun _ => 1) (k := 0) (i := 0) (by decide)
      (by decide)).1
    refine Eq.trans h ?_
    norm_num [exArr1]
  · have h := (C123_clean mixed_ordered exArr1 (c := fun _ => 0) (fun _ => rfl) (k := 0) (i := 0) (by decide)
      (by decide) rfl rfl).1
    exact h

end Pipedream.Recover
