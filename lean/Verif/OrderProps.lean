import Verif.NetworkProps

/-!
# Property C12: the order of elements and the numbering of superjunctions do not matter
-/

namespace Pipedream.Network

variable {K : Type*} [Field K]

/-- List the superlinks in another order. -/
def Links.reorder (L : Links K) (σ : ℕ → ℕ) : Links K where
  n := L.n
  Ju := L.Ju ∘ σ
  Jd := L.Jd ∘ σ
  alpha_u := L.alpha_u ∘ σ
  beta_u := L.beta_u ∘ σ
  chi_u := L.chi_u ∘ σ
  alpha_d := L.alpha_d ∘ σ
  beta_d := L.beta_d ∘ σ
  chi_d := L.chi_d ∘ σ
  xi_u := L.xi_u ∘ σ
  xi_d := L.xi_d ∘ σ

/-- List the controls in another order. -/
def Ctrls.reorder (C : Ctrls K) (σ : ℕ → ℕ) : Ctrls K where
  n := C.n
  Ju := C.Ju ∘ σ
  Jd := C.Jd ∘ σ
  alpha := C.alpha ∘ σ
  beta := C.beta ∘ σ
  chi := C.chi ∘ σ

/-- Other order of superlinks, orifices, weirs and pumps. -/
def Net.reorder (net : Net K) (σl σo σw σp : ℕ → ℕ) : Net K where
  M := net.M
  bc := net.bc
  As := net.As
  links := net.links.reorder σl
  orifices := net.orifices.reorder σo
  weirs := net.weirs.reorder σw
  pumps := net.pumps.reorder σp

/-- Permutation of the first `n` numbers. -/
def PermOf (n : ℕ) (σ : Equiv.Perm ℕ) : Prop := ∀ k, σ k < n ↔ k < n

omit [Field K] in
theorem sum_perm [AddCommMonoid K] {n : ℕ} {σ : Equiv.Perm ℕ} (h : PermOf n σ) (f : ℕ → K) :
    ∑ k ∈ Finset.range n, f (σ k) = ∑ k ∈ Finset.range n, f k :=
  Finset.sum_equiv σ (by intro k; simp [h k]) (fun _ _ => rfl)

theorem blockSpec_reorder {n : ℕ} {σ : Equiv.Perm ℕ} (h : PermOf n σ) (bc : ℕ → Bool) (d0 : K) (F : ℕ → K)
    (Ju Jd : ℕ → ℕ) (bu ad : ℕ → K) (r c : ℕ) :
    blockSpec bc d0 F (Ju ∘ σ) (Jd ∘ σ) (bu ∘ σ) (ad ∘ σ) n r c = blockSpec bc d0 F Ju Jd bu ad n r c := by
  have e1 := sum_perm h (fun k => if Ju k = r ∧ Jd k = c then bu k else 0)
  have e2 := sum_perm h (fun k => if Jd k = r ∧ Ju k = c then ad k else 0)
  unfold blockSpec
  simp only [Function.comp]
  rw [e1, e2]

theorem Fdiag_reorder (net : Net K) (dt : K) {σl σo σw σp : Equiv.Perm ℕ} (h : PermOf net.links.n σl) :
    Fdiag (net.reorder σl σo σw σp) dt = Fdiag net dt := by
  funext i
  exact congrArg (net.As i / dt + ·) (sum_perm h (fun k =>
    (if net.links.Ju k = i then net.links.alpha_u k + net.links.xi_u k else 0) +
     (if net.links.Jd k = i then -net.links.beta_d k + net.links.xi_d k else 0)))

theorem specA_reorder (net : Net K) (dt : K) {σl σo σw σp : Equiv.Perm ℕ} (h : PermOf net.links.n σl) (i j : ℕ) :
    specA (net.reorder σl σo σw σp) dt i j = specA net dt i j := by
  unfold specA
  rw [Fdiag_reorder net dt h]
  exact blockSpec_reorder h _ _ _ _ _ _ _ _ _

theorem specC_reorder (bc : ℕ → Bool) (C : Ctrls K) {σ : Equiv.Perm ℕ} (h : PermOf C.n σ) (i j : ℕ) :
    specC bc (C.reorder σ) i j = specC bc C i j := by
  have e : Cdiag (C.reorder σ) = Cdiag C := by
    funext i
    exact sum_perm h (fun k => (if C.Ju k = i then C.alpha k else 0) + (if C.Jd k = i then -C.beta k else 0))
  unfold specC
  rw [e]
  exact blockSpec_reorder h _ _ _ _ _ _ _ _ _

theorem assembleD_reorder (net : Net K) {σl σo σw σp : Equiv.Perm ℕ}
    (hl : PermOf net.links.n σl) (ho : PermOf net.orifices.n σo) (hw : PermOf net.weirs.n σw)
    (hp : PermOf net.pumps.n σp) (Hp : ℕ → K) (i : ℕ) :
    assembleD (net.reorder σl σo σw σp) Hp i = assembleD net Hp i := by
  have c : ∀ (C : Ctrls K) {σ : Equiv.Perm ℕ}, PermOf C.n σ →
      ∑ k ∈ Finset.range (C.reorder σ).n, ((if (C.reorder σ).Jd k = i then (C.reorder σ).chi k else 0)
        - (if (C.reorder σ).Ju k = i then (C.reorder σ).chi k else 0))
      = ∑ k ∈ Finset.range C.n, ((if C.Jd k = i then C.chi k else 0) - (if C.Ju k = i then C.chi k else 0)) :=
    fun C σ h => sum_perm h (fun k => (if C.Jd k = i then C.chi k else 0) - (if C.Ju k = i then C.chi k else 0))
  have x : (net.reorder σl σo σw σp).links.xiSum i = net.links.xiSum i := sum_perm hl (fun k =>
    (if net.links.Ju k = i then net.links.xi_u k else 0) + (if net.links.Jd k = i then net.links.xi_d k else 0))
  have l := sum_perm hl (fun k => (if net.links.Jd k = i then net.links.chi_d k else 0)
    - (if net.links.Ju k = i then net.links.chi_u k else 0))
  rw [assembleD_apply, assembleD_apply, x]
  exact congrArg₂ (· + ·) (congrArg₂ (· + ·) (congrArg₂ (· + ·) (congrArg₂ (· + ·) rfl l) (c _ ho)) (c _ hw)) (c _ hp)

/-- **C12 (order of elements).** Any reordering of superlinks, orifices, weirs and pumps assembles the
same system matrix and the same right-hand side, so the heads are the same. -/
theorem C12_reorder (net : Net K) (dt : K) (m m' : Mats K) {σl σo σw σp : Equiv.Perm ℕ}
    (hl : PermOf net.links.n σl) (ho : PermOf net.orifices.n σo) (hw : PermOf net.weirs.n σw)
    (hp : PermOf net.pumps.n σp) (hm : CleanMats net m) (hm' : CleanMats (net.reorder σl σo σw σp) m')
    (Hprev Q0 Hbc : ℕ → K) :
    (∀ i j, i < net.M → systemMatrix (net.reorder σl σo σw σp) (assembleMats (net.reorder σl σo σw σp) dt m') i j
      = systemMatrix net (assembleMats net dt m) i j) ∧
    assembleB (net.reorder σl σo σw σp) dt Hprev Q0 Hbc = assembleB net dt Hprev Q0 Hbc ∧
    (∀ x, Solves net.M (systemMatrix (net.reorder σl σo σw σp) (assembleMats (net.reorder σl σo σw σp) dt m'))
        (assembleB (net.reorder σl σo σw σp) dt Hprev Q0 Hbc) x ↔
      Solves net.M (systemMatrix net (assembleMats net dt m)) (assembleB net dt Hprev Q0 Hbc) x) := by
  have h1 : ∀ i j, i < net.M →
      systemMatrix (net.reorder σl σo σw σp) (assembleMats (net.reorder σl σo σw σp) dt m') i j
      = systemMatrix net (assembleMats net dt m) i j := by
    intro i j hi
    rw [(C11_no_stale_coefficients _ dt m' hm').1 i j hi, (C11_no_stale_coefficients _ dt m hm).1 i j hi]
    unfold specL
    rw [specA_reorder net dt hl]
    rw [show specC (net.reorder σl σo σw σp).bc (net.reorder σl σo σw σp).orifices i j = _ from
        specC_reorder net.bc net.orifices ho i j,
      show specC (net.reorder σl σo σw σp).bc (net.reorder σl σo σw σp).weirs i j = _ from
        specC_reorder net.bc net.weirs hw i j,
      show specC (net.reorder σl σo σw σp).bc (net.reorder σl σo σw σp).pumps i j = _ from
        specC_reorder net.bc net.pumps hp i j]
  have h2 : assembleB (net.reorder σl σo σw σp) dt Hprev Q0 Hbc = assembleB net dt Hprev Q0 Hbc := by
    funext i
    unfold assembleB
    rw [assembleD_reorder net hl ho hw hp]
    rfl
  refine ⟨h1, h2, fun x => ?_⟩
  unfold Solves
  rw [h2]
  refine forall_congr' fun i => forall_congr' fun hi => ?_
  rw [Finset.sum_congr rfl (fun j _ => by rw [h1 i j hi])]

/-- Renumber the superjunctions: superjunction `i` becomes `π i`. -/
def Net.renumber (net : Net K) (π : Equiv.Perm ℕ) : Net K where
  M := net.M
  bc := net.bc ∘ π.symm
  As := net.As ∘ π.symm
  links := { net.links with Ju := π ∘ net.links.Ju, Jd := π ∘ net.links.Jd }
  orifices := { net.orifices with Ju := π ∘ net.orifices.Ju, Jd := π ∘ net.orifices.Jd }
  weirs := { net.weirs with Ju := π ∘ net.weirs.Ju, Jd := π ∘ net.weirs.Jd }
  pumps := { net.pumps with Ju := π ∘ net.pumps.Ju, Jd := π ∘ net.pumps.Jd }

omit [Field K] in
theorem Wired.renumber {net : Net K} {π : Equiv.Perm ℕ} (hπ : PermOf net.M π) (h : Wired net) :
    Wired (net.renumber π) :=
  ⟨fun k hk => (hπ _).2 (h.lu k hk), fun k hk => (hπ _).2 (h.ld k hk), fun k hk => (hπ _).2 (h.ou k hk),
   fun k hk => (hπ _).2 (h.od k hk), fun k hk => (hπ _).2 (h.wu k hk), fun k hk => (hπ _).2 (h.wd k hk),
   fun k hk => (hπ _).2 (h.pu k hk), fun k hk => (hπ _).2 (h.pd k hk)⟩

/-- **C12 (numbering of superjunctions).** Renumbering the superjunctions (with their data) renumbers the
solution and does nothing else. -/
theorem C12_renumber (net : Net K) (dt : K) (m m' : Mats K) (π : Equiv.Perm ℕ) (hπ : PermOf net.M π)
    (hwd : Wired net) (hm : CleanMats net m) (hm' : CleanMats (net.renumber π) m') (Hprev Q0 Hbc x : ℕ → K) :
    Solves net.M (systemMatrix (net.renumber π) (assembleMats (net.renumber π) dt m'))
        (assembleB (net.renumber π) dt (Hprev ∘ π.symm) (Q0 ∘ π.symm) (Hbc ∘ π.symm)) (x ∘ π.symm) ↔
      Solves net.M (systemMatrix net (assembleMats net dt m)) (assembleB net dt Hprev Q0 Hbc) x := by
  have A := solves_iff net dt m hm hwd Hprev Q0 Hbc x
  have B := solves_iff (net.renumber π) dt m' hm' (hwd.renumber hπ) (Hprev ∘ π.symm) (Q0 ∘ π.symm)
    (Hbc ∘ π.symm) (x ∘ π.symm)
  have key : ∀ i, Balanced (net.renumber π) dt (Hprev ∘ π.symm) (Q0 ∘ π.symm) (x ∘ π.symm) (π i) ↔
      Balanced net dt Hprev Q0 x i := by
    intro i
    unfold Balanced
    have hx : (net.renumber π).links.xiSum (π i) = net.links.xiSum i := by
      simp [Links.xiSum, Net.renumber, Function.comp]
    have hl : (net.renumber π).links.inflow (x ∘ π.symm) (π i) = net.links.inflow x i := by
      simp [Links.inflow, Links.Qu, Links.Qd, Net.renumber, Function.comp]
    have ho : (net.renumber π).orifices.inflow (x ∘ π.symm) (π i) = net.orifices.inflow x i := by
      simp [Ctrls.inflow, Ctrls.Q, Net.renumber, Function.comp]
    have hw : (net.renumber π).weirs.inflow (x ∘ π.symm) (π i) = net.weirs.inflow x i := by
      simp [Ctrls.inflow, Ctrls.Q, Net.renumber, Function.comp]
    have hp : (net.renumber π).pumps.inflow (x ∘ π.symm) (π i) = net.pumps.inflow x i := by
      simp [Ctrls.inflow, Ctrls.Q, Net.renumber, Function.comp]
    rw [hx, hl, ho, hw, hp]
    simp [Net.renumber, Function.comp]
  refine Iff.trans B (Iff.trans ?_ A.symm)
  constructor
  · intro h i hi
    have := h (π i) ((hπ i).2 hi)
    rw [key] at this
    simpa [Net.renumber] using this
  · intro h i hi
    obtain ⟨j, rfl⟩ := π.surjective i
    have := h j ((hπ j).1 hi)
    rw [key]
    simpa [Net.renumber] using this

/-! ### Non-vacuity -/

/-- Swapping two superlinks, respectively two superjunctions, of the three-node example. -/
example : PermOf exNet.links.n (Equiv.swap 0 2) ∧ PermOf exNet.orifices.n (Equiv.refl ℕ) ∧
    PermOf exNet.M (Equiv.swap 0 1) := by
  refine ⟨fun k => ?_, fun k => Iff.rfl, fun k => ?_⟩ <;>
  · simp only [exNet, Equiv.swap_apply_def]
    split_ifs <;> omega

end Pipedream.Network
