import Verif.Basic

/-!
# Model of the internal sweeps of a superlink

Function-by-function model of the recurrence coefficients, of the loops
`numba_forward_recurrence`, `numba_backward_recurrence` and of `numba_solve_internals` in
`/repo/pipedream_solver/nsuperlink.py`.  Scalars are elements of a linear ordered field `K`
(exact arithmetic; simplification of `float64`).  The gravity constant `9.81` of the code is the
parameter `g`.
-/

namespace Pipedream.Sweep

variable {K : Type*} [Field K] [LinearOrder K]

/-! ### Scalar recurrence coefficients -/

/-- `U_1k` — nsuperlink.py 2366–2375. -/
def U_1k (E_2k c_1k A_1k T_1k g : K) : K :=
  safeDivide (E_2k * c_1k - g * A_1k) T_1k

/-- `V_1k` — nsuperlink.py 2377–2386. -/
def V_1k (P_1k D_2k c_1k T_1k a_1k D_1k : K) : K :=
  safeDivide (P_1k - D_2k * c_1k + D_1k * a_1k) T_1k

/-- `W_1k` — nsuperlink.py 2388–2397. -/
def W_1k (A_1k T_1k a_1k E_1k g : K) : K :=
  safeDivide (g * A_1k - E_1k * a_1k) T_1k

/-- `T_1k` — nsuperlink.py 2399–2405. -/
def T_1k (a_1k b_1k c_1k : K) : K := a_1k + b_1k + c_1k

/-- `U_Ik` — nsuperlink.py 2407–2416. -/
def U_Ik (E_Ip1k c_ik A_ik T_ik g : K) : K :=
  safeDivide (E_Ip1k * c_ik - g * A_ik) T_ik

/-- `V_Ik` — nsuperlink.py 2418–2435. The inner division `t_3 * t_4 / t_5` is unguarded in the code
(ZeroDivisionError in Python); theorems carry or prove `t_5 ≠ 0`. -/
def V_Ik (P_ik a_ik D_Ik D_Ip1k c_ik A_ik E_Ik V_Im1k U_Im1k T_ik g : K) : K :=
  let t_0 := P_ik
  let t_1 := a_ik * D_Ik
  let t_2 := D_Ip1k * c_ik
  let t_3 := g * A_ik - E_Ik * a_ik
  let t_4 := V_Im1k + D_Ik
  let t_5 := U_Im1k - E_Ik
  let t_6 := T_ik
  safeDivide (t_0 + t_1 - t_2 - (t_3 * t_4 / t_5)) t_6

/-- `W_Ik` — nsuperlink.py 2437–2446. -/
def W_Ik (A_ik E_Ik a_ik W_Im1k U_Im1k T_ik g : K) : K :=
  safeDivide (-(g * A_ik - E_Ik * a_ik) * W_Im1k) ((U_Im1k - E_Ik) * T_ik)

/-- `T_ik` — nsuperlink.py 2448–2458. -/
def T_ik (a_ik b_ik c_ik A_ik E_Ik U_Im1k g : K) : K :=
  let t_0 := a_ik + b_ik + c_ik
  let t_1 := g * A_ik - E_Ik * a_ik
  let t_2 := U_Im1k - E_Ik
  t_0 - safeDivide t_1 t_2

/-- `X_Nk` — nsuperlink.py 2460–2469. -/
def X_Nk (A_nk E_Nk a_nk O_nk g : K) : K := safeDivide (g * A_nk - E_Nk * a_nk) O_nk

/-- `Y_Nk` — nsuperlink.py 2471–2480. -/
def Y_Nk (P_nk D_Nk a_nk O_nk c_nk D_Np1k : K) : K :=
  safeDivide (P_nk + D_Nk * a_nk - D_Np1k * c_nk) O_nk

/-- `Z_Nk` — nsuperlink.py 2482–2491. -/
def Z_Nk (A_nk O_nk c_nk E_Np1k g : K) : K := safeDivide (E_Np1k * c_nk - g * A_nk) O_nk

/-- `O_nk` — nsuperlink.py 2493–2499. -/
def O_nk (a_nk b_nk c_nk : K) : K := a_nk + b_nk + c_nk

/-- `X_Ik` — nsuperlink.py 2501–2510. -/
def X_Ik (A_ik E_Ik a_ik O_ik g : K) : K := safeDivide (g * A_ik - E_Ik * a_ik) O_ik

/-- `Y_Ik` — nsuperlink.py 2512–2529. Unguarded inner division as in `V_Ik`. -/
def Y_Ik (P_ik a_ik D_Ik D_Ip1k c_ik A_ik E_Ip1k Y_Ip1k X_Ip1k O_ik g : K) : K :=
  let t_0 := P_ik
  let t_1 := a_ik * D_Ik
  let t_2 := D_Ip1k * c_ik
  let t_3 := g * A_ik - E_Ip1k * c_ik
  let t_4 := D_Ip1k - Y_Ip1k
  let t_5 := X_Ip1k + E_Ip1k
  let t_6 := O_ik
  safeDivide (t_0 + t_1 - t_2 - (t_3 * t_4 / t_5)) t_6

/-- `Z_Ik` — nsuperlink.py 2531–2540. -/
def Z_Ik (A_ik E_Ip1k c_ik Z_Ip1k X_Ip1k O_ik g : K) : K :=
  safeDivide ((g * A_ik - E_Ip1k * c_ik) * Z_Ip1k) ((X_Ip1k + E_Ip1k) * O_ik)

/-- `O_ik` — nsuperlink.py 2542–2552. -/
def O_ik (a_ik b_ik c_ik A_ik E_Ip1k X_Ip1k g : K) : K :=
  let t_0 := a_ik + b_ik + c_ik
  let t_1 := g * A_ik - E_Ip1k * c_ik
  let t_2 := X_Ip1k + E_Ip1k
  t_0 + safeDivide t_1 t_2

/-! ### The sweeps over the global arrays -/

/-- The coefficient arrays read by the sweeps: link arrays `a, b, c, P, A` (index `ik`) and junction
arrays `E, D` (index `Ik`). -/
structure Coef (K : Type*) where
  a : ℕ → K
  b : ℕ → K
  c : ℕ → K
  P : ℕ → K
  A : ℕ → K
  E : ℕ → K
  D : ℕ → K

/-- The slices of the arrays belonging to the superlink starting at link `i1`, junction `I1`. -/
def Coef.slice (co : Coef K) (i1 I1 : ℕ) : Coef K where
  a j := co.a (i1 + j)
  b j := co.b (i1 + j)
  c j := co.c (i1 + j)
  P j := co.P (i1 + j)
  A j := co.A (i1 + j)
  E j := co.E (I1 + j)
  D j := co.D (I1 + j)

/-- Arrays written by the forward sweep. -/
structure Fwd (K : Type*) where
  T : ℕ → K
  U : ℕ → K
  V : ℕ → K
  W : ℕ → K

/-- Start of the forward sweep of one superlink — nsuperlink.py 2966–2976. -/
def fwdFirst (g : K) (co : Coef K) (I1 i1 : ℕ) (s : Fwd K) : Fwd K :=
  let I2 := I1 + 1
  let T := upd s.T i1 (T_1k (co.a i1) (co.b i1) (co.c i1))
  let U := upd s.U I1 (U_1k (co.E I2) (co.c i1) (co.A i1) (T i1) g)
  let V := upd s.V I1 (V_1k (co.P i1) (co.D I2) (co.c i1) (T i1) (co.a i1) (co.D I1))
  let W := upd s.W I1 (W_1k (co.A i1) (T i1) (co.a i1) (co.E I1) g)
  ⟨T, U, V, W⟩

/-- Body of the inner loop of the forward sweep — nsuperlink.py 2978–2992. -/
def fwdNext (g : K) (co : Coef K) (I1 i1 : ℕ) (i : ℕ) (s : Fwd K) : Fwd K :=
  let I2 := I1 + 1
  let i2 := i1 + 1
  let i_next := i2 + i
  let I_next := I2 + i
  let Im1_next := I_next - 1
  let Ip1_next := I_next + 1
  let T := upd s.T i_next (T_ik (co.a i_next) (co.b i_next) (co.c i_next)
    (co.A i_next) (co.E I_next) (s.U Im1_next) g)
  let U := upd s.U I_next (U_Ik (co.E Ip1_next) (co.c i_next) (co.A i_next) (T i_next) g)
  let V := upd s.V I_next (V_Ik (co.P i_next) (co.a i_next) (co.D I_next) (co.D Ip1_next)
    (co.c i_next) (co.A i_next) (co.E I_next) (s.V Im1_next) (U Im1_next) (T i_next) g)
  let W := upd s.W I_next (W_Ik (co.A i_next) (co.E I_next) (co.a i_next)
    (s.W Im1_next) (U Im1_next) (T i_next) g)
  ⟨T, U, V, W⟩

/-- Forward sweep of one superlink (body of the outer loop) — nsuperlink.py 2965–2992. -/
def fwdSuperlink (g : K) (co : Coef K) (nlinks I1 i1 : ℕ) (s : Fwd K) : Fwd K :=
  forRange (nlinks - 1) (fwdNext g co I1 i1) (fwdFirst g co I1 i1 s)

/-- `numba_forward_recurrence` — nsuperlink.py 2959–2993. -/
def forwardRecurrence (g : K) (co : Coef K) (NK : ℕ) (nk I_1k i_1k : ℕ → ℕ) (s : Fwd K) : Fwd K :=
  forRange NK (fun k s => fwdSuperlink g co (nk k) (I_1k k) (i_1k k) s) s

/-- Arrays written by the backward sweep. -/
structure Bwd (K : Type*) where
  O : ℕ → K
  X : ℕ → K
  Y : ℕ → K
  Z : ℕ → K

/-- Start of the backward sweep of one superlink — nsuperlink.py 3002–3012. -/
def bwdFirst (g : K) (co : Coef K) (I_N i_n : ℕ) (s : Bwd K) : Bwd K :=
  let I_Np1 := I_N + 1
  let O := upd s.O i_n (O_nk (co.a i_n) (co.b i_n) (co.c i_n))
  let X := upd s.X I_N (X_Nk (co.A i_n) (co.E I_N) (co.a i_n) (O i_n) g)
  let Y := upd s.Y I_N (Y_Nk (co.P i_n) (co.D I_N) (co.a i_n) (O i_n) (co.c i_n) (co.D I_Np1))
  let Z := upd s.Z I_N (Z_Nk (co.A i_n) (O i_n) (co.c i_n) (co.E I_Np1) g)
  ⟨O, X, Y, Z⟩

/-- Body of the inner loop of the backward sweep — nsuperlink.py 3013–3026. -/
def bwdNext (g : K) (co : Coef K) (I_N i_n : ℕ) (i : ℕ) (s : Bwd K) : Bwd K :=
  let I_Nm1 := I_N - 1
  let i_nm1 := i_n - 1
  let i_next := i_nm1 - i
  let I_next := I_Nm1 - i
  let Ip1_next := I_next + 1
  let O := upd s.O i_next (O_ik (co.a i_next) (co.b i_next) (co.c i_next)
    (co.A i_next) (co.E Ip1_next) (s.X Ip1_next) g)
  let X := upd s.X I_next (X_Ik (co.A i_next) (co.E I_next) (co.a i_next) (O i_next) g)
  let Y := upd s.Y I_next (Y_Ik (co.P i_next) (co.a i_next) (co.D I_next) (co.D Ip1_next)
    (co.c i_next) (co.A i_next) (co.E Ip1_next) (s.Y Ip1_next) (X Ip1_next) (O i_next) g)
  let Z := upd s.Z I_next (Z_Ik (co.A i_next) (co.E Ip1_next) (co.c i_next)
    (s.Z Ip1_next) (X Ip1_next) (O i_next) g)
  ⟨O, X, Y, Z⟩

/-- Backward sweep of one superlink (body of the outer loop) — nsuperlink.py 3001–3026. -/
def bwdSuperlink (g : K) (co : Coef K) (nlinks I_N i_n : ℕ) (s : Bwd K) : Bwd K :=
  forRange (nlinks - 1) (bwdNext g co I_N i_n) (bwdFirst g co I_N i_n s)

/-- `numba_backward_recurrence` — nsuperlink.py 2995–3027. -/
def backwardRecurrence (g : K) (co : Coef K) (NK : ℕ) (nk I_Nk i_nk : ℕ → ℕ) (s : Bwd K) : Bwd K :=
  forRange NK (fun k s => bwdSuperlink g co (nk k) (I_Nk k) (i_nk k) s) s

/-! ### Internal solve -/

/-- `Q_i_f` — nsuperlink.py 2178–2184. -/
def Q_i_f (h_Ip1k h_1k U_Ik V_Ik W_Ik : K) : K := U_Ik * h_Ip1k + V_Ik + W_Ik * h_1k

/-- `Q_i_b` — nsuperlink.py 2186–2192. -/
def Q_i_b (h_Ik h_Np1k X_Ik Y_Ik Z_Ik : K) : K := X_Ik * h_Ik + Y_Ik + Z_Ik * h_Np1k

/-- `h_i_b` — nsuperlink.py 2194–2200. -/
def h_i_b (Q_ik h_Np1k X_Ik Y_Ik Z_Ik : K) : K := safeDivide (Q_ik - Y_Ik - Z_Ik * h_Np1k) X_Ik

/-- The two successive `if` clips — nsuperlink.py 2230–2233 (lower bound first, then upper). -/
def clipDepth (min_depth max_depth h : K) : K :=
  let h := if h < min_depth then min_depth else h
  if h > max_depth then max_depth else h

/-- Junction depths and link flows. -/
structure HQ (K : Type*) where
  h : ℕ → K
  Q : ℕ → K

/-- Body of the inner loop of `numba_solve_internals` — nsuperlink.py 2224–2233. -/
def internalsNext (f : Fwd K) (bw : Bwd K) (min_depth max_depth h_1 h_Np1 : K) (I_N i_n : ℕ)
    (j : ℕ) (s : HQ K) : HQ K :=
  let I := I_N - j
  let Ip1 := I + 1
  let i := i_n - j
  let Q := upd s.Q i (Q_i_f (s.h Ip1) h_1 (f.U I) (f.V I) (f.W I))
  let h := upd s.h I (clipDepth min_depth max_depth (h_i_b (Q i) h_Np1 (bw.X I) (bw.Y I) (bw.Z I)))
  ⟨h, Q⟩

/-- Body of the outer loop of `numba_solve_internals` — nsuperlink.py 2209–2240. -/
def internalsSuperlink (f : Fwd K) (bw : Bwd K) (min_depth max_depth h_u h_d : K)
    (n I_1 i_1 : ℕ) (first_link_backwards : Bool) (s : HQ K) : HQ K :=
  let i_n := i_1 + n - 1
  let I_Np1 := I_1 + n
  let I_N := I_Np1 - 1
  let h_1 := h_u
  let h_Np1 := h_d
  let s := { s with h := upd (upd s.h I_1 h_1) I_Np1 h_Np1 }
  let s := forRange (n - 1) (internalsNext f bw min_depth max_depth h_1 h_Np1 I_N i_n) s
  if first_link_backwards then
    { s with Q := upd s.Q i_1 (Q_i_b (s.h I_1) h_Np1 (bw.X I_1) (bw.Y I_1) (bw.Z I_1)) }
  else
    { s with Q := upd s.Q i_1 (Q_i_f (s.h (I_1 + 1)) h_1 (f.U I_1) (f.V I_1) (f.W I_1)) }

/-- `numba_solve_internals` — nsuperlink.py 2202–2241. -/
def numbaSolveInternals (f : Fwd K) (bw : Bwd K) (min_depth : K) (max_depth_k h_uk h_dk : ℕ → K)
    (i_1k I_1k nk : ℕ → ℕ) (NK : ℕ) (first_link_backwards : Bool) (s : HQ K) : HQ K :=
  forRange NK (fun k s => internalsSuperlink f bw min_depth (max_depth_k k) (h_uk k) (h_dk k)
    (nk k) (I_1k k) (i_1k k) first_link_backwards s) s

/-- `solve_internals_backwards` / `solve_internals_forwards` — nsuperlink.py 1385–1422 and
1424–1458: run the loop, then raise every depth below `min_depth` to `min_depth`
(`_h_Ik[_h_Ik < min_depth] = min_depth`). The finiteness assertion is outside the model. -/
def solveInternals (f : Fwd K) (bw : Bwd K) (min_depth : K) (max_depth_k h_uk h_dk : ℕ → K)
    (i_1k I_1k nk : ℕ → ℕ) (NK : ℕ) (first_link_backwards : Bool) (s : HQ K) : HQ K :=
  let s := numbaSolveInternals f bw min_depth max_depth_k h_uk h_dk i_1k I_1k nk NK
    first_link_backwards s
  { s with h := fun I => if s.h I < min_depth then min_depth else s.h I }

end Pipedream.Sweep
