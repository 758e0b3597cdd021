import Verif.Basic

/-!
# Model of the network head equations

`sparse_matrix_equations`, `solve_sparse_matrix` (nsuperlink.py 1133–1341) and the numba kernels
`numba_clear_off_diagonals`, `numba_create_A_matrix`, `numba_create_OWP_matrix` (3050–3115).
Matrices are functions `ℕ → ℕ → K`; only indices below `M` are meaningful. `bc` is the Boolean mask of
fixed-head superjunctions. The `first_time and _sparse` conversion to CSR (1294–1295) changes the
storage format only and is not modelled.
-/

namespace Pipedream.Network

variable {K : Type*} [Field K] [LinearOrder K]

/-- Superlinks as seen by the assembly: end superjunctions and flow/volume coefficients. -/
structure Links (K : Type*) where
  n : ℕ
  Ju : ℕ → ℕ
  Jd : ℕ → ℕ
  alpha_u : ℕ → K
  beta_u : ℕ → K
  chi_u : ℕ → K
  alpha_d : ℕ → K
  beta_d : ℕ → K
  chi_d : ℕ → K
  xi_u : ℕ → K
  xi_d : ℕ → K

/-- Orifices, weirs or pumps as seen by the assembly; the code uses one `(α, β, χ)` for both ends
(nsuperlink.py 1238–1243, 1253–1258, 1268–1273). -/
structure Ctrls (K : Type*) where
  n : ℕ
  Ju : ℕ → ℕ
  Jd : ℕ → ℕ
  alpha : ℕ → K
  beta : ℕ → K
  chi : ℕ → K

/-- A network with the coefficients of one step. -/
structure Net (K : Type*) where
  M : ℕ
  bc : ℕ → Bool
  As : ℕ → K
  links : Links K
  orifices : Ctrls K
  weirs : Ctrls K
  pumps : Ctrls K

/-- The four system matrices kept between steps. -/
structure Mats (K : Type*) where
  A : ℕ → ℕ → K
  O : ℕ → ℕ → K
  W : ℕ → ℕ → K
  P : ℕ → ℕ → K

/-- `xi_uk`, `xi_dk` — nsuperlink.py 2700–2714. -/
def xi (dx B theta dt : K) : K := dx * B * theta / (2 * dt)

/-- `numba_clear_off_diagonals` — nsuperlink.py 3050–3061. -/
def clearOffDiagonals (bc : ℕ → Bool) (Ju Jd : ℕ → ℕ) (n : ℕ) (A : ℕ → ℕ → K) : ℕ → ℕ → K :=
  forRange n (fun k A =>
    let A := if bc (Ju k) then A else upd2 A (Ju k) (Jd k) 0
    if bc (Jd k) then A else upd2 A (Jd k) (Ju k) 0) A

/-- Diagonal loop of `numba_create_A_matrix` (3077–3081, `d0 = 1`) and of `numba_create_OWP_matrix`
(3101–3105, `d0 = 0`). -/
def setDiag (bc : ℕ → Bool) (d0 : K) (F : ℕ → K) (M : ℕ) (A : ℕ → ℕ → K) : ℕ → ℕ → K :=
  forRange M (fun i A => upd2 A i i (if bc i then d0 else F i)) A

/-- Off-diagonal loop of `numba_create_A_matrix` (3082–3090) and `numba_create_OWP_matrix`
(3107–3115). -/
def addOffDiag (bc : ℕ → Bool) (Ju Jd : ℕ → ℕ) (beta_u alpha_d : ℕ → K) (n : ℕ) (A : ℕ → ℕ → K) :
    ℕ → ℕ → K :=
  forRange n (fun k A =>
    let A := if bc (Ju k) then A else upd2 A (Ju k) (Jd k) (A (Ju k) (Jd k) + beta_u k)
    if bc (Jd k) then A else upd2 A (Jd k) (Ju k) (A (Jd k) (Ju k) - alpha_d k)) A

/-- `numba_create_A_matrix` — nsuperlink.py 3063–3090, with the zero-filled `_F_jj` of 1219. -/
def createA (net : Net K) (dt : K) (A : ℕ → ℕ → K) : ℕ → ℕ → K :=
  let L := net.links
  let F : ℕ → K := fun _ => 0
  let F := addAt F L.Ju L.alpha_u L.n
  let F := addAt F L.Jd (fun k => -L.beta_d k) L.n
  let F := addAt F L.Ju L.xi_u L.n
  let F := addAt F L.Jd L.xi_d L.n
  let F := fun i => F i + net.As i / dt
  let A := setDiag net.bc 1 F net.M A
  addOffDiag net.bc L.Ju L.Jd L.beta_u L.alpha_d L.n A

/-- `numba_create_OWP_matrix` — nsuperlink.py 3092–3115, with the zero-filled diagonal of 1242, 1258, 1274. -/
def createOWP (bc : ℕ → Bool) (M : ℕ) (C : Ctrls K) (X : ℕ → ℕ → K) : ℕ → ℕ → K :=
  let d : ℕ → K := fun _ => 0
  let d := addAt d C.Ju C.alpha C.n
  let d := addAt d C.Jd (fun k => -C.beta k) C.n
  let X := setDiag bc 0 d M X
  addOffDiag bc C.Ju C.Jd C.beta C.alpha C.n X

/-- One control block — e.g. nsuperlink.py 1237–1248: nothing happens when there are no such controls. -/
def ctrlBlock (bc : ℕ → Bool) (M : ℕ) (C : Ctrls K) (X : ℕ → ℕ → K) : ℕ → ℕ → K :=
  if C.n = 0 then X else createOWP bc M C (clearOffDiagonals bc C.Ju C.Jd C.n X)

/-- Control part of the vector `D` — e.g. nsuperlink.py 1250–1251. -/
def ctrlD (C : Ctrls K) (D : ℕ → K) : ℕ → K :=
  if C.n = 0 then D
  else addAt (addAt D C.Ju (fun k => -C.chi k) C.n) C.Jd C.chi C.n

/-- All four matrices — nsuperlink.py 1226–1281. -/
def assembleMats (net : Net K) (dt : K) (m : Mats K) : Mats K where
  A := createA net dt (clearOffDiagonals net.bc net.links.Ju net.links.Jd net.links.n m.A)
  O := ctrlBlock net.bc net.M net.orifices m.O
  W := ctrlBlock net.bc net.M net.weirs m.W
  P := ctrlBlock net.bc net.M net.pumps m.P

/-- The vector `D` — nsuperlink.py 1225, 1232–1235 and the control parts. -/
def assembleD (net : Net K) (Hprev : ℕ → K) : ℕ → K :=
  let L := net.links
  let D : ℕ → K := fun _ => 0
  let D := addAt D L.Ju (fun k => -L.chi_u k) L.n
  let D := addAt D L.Jd L.chi_d L.n
  let D := addAt D L.Ju (fun k => L.xi_u k * Hprev (L.Ju k)) L.n
  let D := addAt D L.Jd (fun k => L.xi_d k * Hprev (L.Jd k)) L.n
  ctrlD net.pumps (ctrlD net.weirs (ctrlD net.orifices D))

/-- The right-hand side `b` — nsuperlink.py 1282–1286. -/
def assembleB (net : Net K) (dt : K) (Hprev Q0 Hbc : ℕ → K) : ℕ → K := fun i =>
  if net.bc i then Hbc i else net.As i * Hprev i / dt + Q0 i + assembleD net Hprev i

/-- The system matrix `l` — nsuperlink.py 1316–1330. -/
def systemMatrix (net : Net K) (m : Mats K) : ℕ → ℕ → K :=
  if net.orifices.n + net.weirs.n + net.pumps.n = 0 then m.A
  else fun i j => m.A i j + m.O i j + m.W i j + m.P i j

/-- `scipy.linalg.solve(l, r)` by specification: `x` solves the linear system. -/
def Solves (M : ℕ) (l : ℕ → ℕ → K) (r x : ℕ → K) : Prop :=
  ∀ i, i < M → ∑ j ∈ Finset.range M, l i j * x j = r i

/-- Head limits — nsuperlink.py 1337–1339 and 1379–1381. -/
def clipHead (z_inv maxDepth x : ℕ → K) : ℕ → K := fun i =>
  min (max (x i) (z_inv i)) (z_inv i + maxDepth i)

end Pipedream.Network
