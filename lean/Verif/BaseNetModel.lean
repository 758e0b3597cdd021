import Verif.NetworkModel

/-!
# Model of the head equations of the pure-Python class

`sparse_matrix_equations` and the limits of `solve_sparse_matrix`, `solve_banded_matrix` of
`/repo/pipedream_solver/superlink.py` 2672–2878, 2880–2963 (the class used when numba cannot be imported, with
`implicit`). A masked assignment `A[R[m], C[m]] = v` and `np.add.at(A, (R[m], C[m]), v[m])` are loops over the
elements whose row is not a fixed head. The compiled counterpart is `Verif.NetworkModel`.
-/

namespace Pipedream.Network

variable {K : Type*} [Field K] [LinearOrder K]

/-- `A[R[~bc[R]], C[~bc[R]]] = 0` — superlink.py 2756–2757, 2790–2791, 2825–2826, 2856–2857. -/
def zeroAt (bc : ℕ → Bool) (R C : ℕ → ℕ) (n : ℕ) (A : ℕ → ℕ → K) : ℕ → ℕ → K :=
  forRange n (fun k A => if bc (R k) then A else upd2 A (R k) (C k) 0) A

/-- `np.add.at(A, (R[~bc[R]], C[~bc[R]]), v[~bc[R]])` — superlink.py 2758–2759, 2792–2793, 2827–2828, 2858–2859. -/
def addAt2 (bc : ℕ → Bool) (R C : ℕ → ℕ) (v : ℕ → K) (n : ℕ) (A : ℕ → ℕ → K) : ℕ → ℕ → K :=
  forRange n (fun k A => if bc (R k) then A else upd2 A (R k) (C k) (A (R k) (C k) + v k)) A

/-- `A[i[~bc], i[~bc]] = d[i[~bc]]` — superlink.py 2751, 2789, 2824, 2855. -/
def setFree (bc : ℕ → Bool) (d : ℕ → K) (M : ℕ) (A : ℕ → ℕ → K) : ℕ → ℕ → K :=
  forRange M (fun i A => if bc i then A else upd2 A i i (d i)) A

/-- `self.A[i[bc], i[bc]] = 1` — superlink.py 2752. -/
def setFixed (bc : ℕ → Bool) (M : ℕ) (A : ℕ → ℕ → K) : ℕ → ℕ → K :=
  forRange M (fun i A => if bc i then upd2 A i i 1 else A) A

/-- Off-diagonal entries: all are zeroed, then both kinds are added — superlink.py 2753–2759 and, for the controls,
2790–2793, 2825–2828, 2856–2859. -/
def offDiagBase (bc : ℕ → Bool) (Ju Jd : ℕ → ℕ) (bu ad : ℕ → K) (n : ℕ) (A : ℕ → ℕ → K) : ℕ → ℕ → K :=
  let A := zeroAt bc Ju Jd n A
  let A := zeroAt bc Jd Ju n A
  let A := addAt2 bc Ju Jd bu n A
  addAt2 bc Jd Ju (fun k => -ad k) n A

/-- The matrix `A` — superlink.py 2743–2759, with `F_jj` of 1545–1552. -/
def baseA (net : Net K) (dt : K) (A : ℕ → ℕ → K) : ℕ → ℕ → K :=
  let L := net.links
  let alpha_ukm := addAt (fun _ => (0 : K)) L.Ju L.alpha_u L.n
  let beta_dkl := addAt (fun _ => (0 : K)) L.Jd L.beta_d L.n
  let F : ℕ → K := fun i => net.As i / dt - beta_dkl i + alpha_ukm i
  let A := setFree net.bc F net.M A
  let A := setFixed net.bc net.M A
  offDiagBase net.bc L.Ju L.Jd L.beta_u L.alpha_d L.n A

/-- One control matrix — superlink.py 2769–2793 (orifices), 2804–2828 (weirs), 2835–2859 (pumps). -/
def baseBlock (bc : ℕ → Bool) (M : ℕ) (C : Ctrls K) (X : ℕ → ℕ → K) : ℕ → ℕ → K :=
  if C.n = 0 then X
  else
    let alpha_m := addAt (fun _ => (0 : K)) C.Ju C.alpha C.n
    let beta_l := addAt (fun _ => (0 : K)) C.Jd C.beta C.n
    let X := setFree bc (fun i => -beta_l i + alpha_m i) M X
    offDiagBase bc C.Ju C.Jd C.beta C.alpha C.n X

/-- Part of a kind of control in `D`; only free superjunctions receive it — superlink.py 2794–2797, 2829–2832,
2860–2863. -/
def baseCtrlD (bc : ℕ → Bool) (C : Ctrls K) (D : ℕ → K) : ℕ → K :=
  if C.n = 0 then D
  else fun i => if bc i then D i
    else D i + (-addAt (fun _ => (0 : K)) C.Ju C.chi C.n i + addAt (fun _ => (0 : K)) C.Jd C.chi C.n i)

/-- The vector `D` — superlink.py 2760–2766 and the controls. -/
def baseD (net : Net K) : ℕ → K :=
  let L := net.links
  let D : ℕ → K := fun i => -addAt (fun _ => (0 : K)) L.Ju L.chi_u L.n i + addAt (fun _ => (0 : K)) L.Jd L.chi_d L.n i
  baseCtrlD net.bc net.pumps (baseCtrlD net.bc net.weirs (baseCtrlD net.bc net.orifices D))

/-- The right-hand side — superlink.py 2866–2869; `H` is `self.H_j`, the head of the last iteration. -/
def baseB (net : Net K) (dt : K) (H Q0 Hbc : ℕ → K) : ℕ → K := fun i =>
  if net.bc i then Hbc i else net.As i * H i / dt + Q0 i + baseD net i

/-- All four matrices. -/
def baseMats (net : Net K) (dt : K) (m : Mats K) : Mats K where
  A := baseA net dt m.A
  O := baseBlock net.bc net.M net.orifices m.O
  W := baseBlock net.bc net.M net.weirs m.W
  P := baseBlock net.bc net.M net.pumps m.P

/-- Head limits — superlink.py 2917–2919, 2959–2961; `mn` is `min_depth`. -/
def clipHeadBase (z_inv maxDepth : ℕ → K) (mn : K) (x : ℕ → K) : ℕ → K := fun i =>
  min (max (x i) (z_inv i + mn)) (z_inv i + maxDepth i)

end Pipedream.Network
