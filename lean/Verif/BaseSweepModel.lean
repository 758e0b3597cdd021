import Verif.TopologyModel
import Verif.LinkModel

/-!
# The sweeps of the base class

`SuperLink.forward_recurrence` and `backward_recurrence` (`superlink.py:2161-2302`) with the coefficient functions
`superlink.py:1232-1393`. All superlinks are advanced together: a `while` loop carries the array `_I_next` of
junctions (one per superlink that has not been finished), and every statement of its body works on whole
arrays. `while` loops are run with fuel; `none` means that the loop is still running when the fuel is used
up.
-/

namespace Pipedream.Base

open Pipedream.Sweep Pipedream.Topology

variable {K : Type*} [Field K] [LinearOrder K]

/-- `a[p[Is]] = v[Is]`: all values are computed before any is written, later entries win. -/
def put (Is : List ℕ) (p : ℕ → ℕ) (v : ℕ → K) (a : ℕ → K) : ℕ → K := Is.foldl (fun a I => upd a (p I) (v I)) a

/-- `T_ik` — superlink.py 1300–1312: zero where the divisor `t_2` vanishes. -/
def T_ik (a_ik b_ik c_ik A_ik E_Ik U_Im1k g : K) : K :=
  let t_0 := a_ik + b_ik + c_ik
  let t_1 := g * A_ik - E_Ik * a_ik
  let t_2 := U_Im1k - E_Ik
  if t_2 ≠ 0 then t_0 - t_1 / t_2 else 0

/-- `O_ik` — superlink.py 1382–1393: zero where the divisor `t_2` vanishes. -/
def O_ik (a_ik b_ik c_ik A_ik E_Ip1k X_Ip1k g : K) : K :=
  let t_0 := a_ik + b_ik + c_ik
  let t_1 := g * A_ik - E_Ip1k * c_ik
  let t_2 := X_Ip1k + E_Ip1k
  if t_2 ≠ 0 then t_0 + t_1 / t_2 else 0

/-! The other functions have the formulas of the numba class (`Sweep.U_1k`, …): superlink.py 1233–1298,
1316–1380. In `V_Ik`, `Y_Ik` the inner quotient is an array expression (infinite or undefined where `t_5` vanishes);
there `T_ik`, `O_ik` are zero and the decorator `safe_divide` (1124–1134) discards it. -/

/-- Values written by the forward sweep for one link. -/
structure FV (K : Type*) where
  T : K
  U : K
  V : K
  W : K

/-- superlink.py 2186–2199, the first link of a superlink whose first junction is `I1`, second `I2`; `o` is
`_end_method == 'o'` (then `V_1k`, `W_1k` are called with their default arguments `a_1k = D_1k = E_1k = 0`). -/
def fwdStart (o : Bool) (g : K) (co : Coef K) (I1 I2 i1 : ℕ) : FV K :=
  let T := T_1k (co.a i1) (co.b i1) (co.c i1)
  { T := T
    U := U_1k (co.E I2) (co.c i1) (co.A i1) T g
    V := if o then V_1k (co.P i1) (co.D I2) (co.c i1) T 0 0
         else V_1k (co.P i1) (co.D I2) (co.c i1) T (co.a i1) (co.D I1)
    W := if o then W_1k (co.A i1) T 0 0 g else W_1k (co.A i1) T (co.a i1) (co.E I1) g }

/-- `_T_ik[_i_1k] = _T_1k`, … — superlink.py 2201–2204, and again 2225–2228. -/
def fwdInit (t : Tables) (o : Bool) (g : K) (co : Coef K) (s : Fwd K) : Fwd K :=
  let st := fun k => fwdStart o g co (t.start k) (t.I_2k k) (t.i_1k k)
  let ks := List.range t.NK
  ⟨put ks t.i_1k (fun k => (st k).T) s.T, put ks t.start (fun k => (st k).U) s.U,
    put ks t.start (fun k => (st k).V) s.V, put ks t.start (fun k => (st k).W) s.W⟩

/-- Body of the `while` loop — superlink.py 2209–2222. -/
def fwdBody (t : Tables) (g : K) (co : Coef K) (Is : List ℕ) (s : Fwd K) : Fwd K :=
  let Im1 := t.backwardII
  let Ip1 := t.forwardII
  let i := t.forwardIi
  let T := put Is i (fun I => T_ik (co.a (i I)) (co.b (i I)) (co.c (i I)) (co.A (i I)) (co.E I) (s.U (Im1 I)) g) s.T
  let U := put Is (fun I => I) (fun I => U_Ik (co.E (Ip1 I)) (co.c (i I)) (co.A (i I)) (T (i I)) g) s.U
  let V := put Is (fun I => I) (fun I => V_Ik (co.P (i I)) (co.a (i I)) (co.D I) (co.D (Ip1 I)) (co.c (i I))
    (co.A (i I)) (co.E I) (s.V (Im1 I)) (U (Im1 I)) (T (i I)) g) s.V
  let W := put Is (fun I => I) (fun I => W_Ik (co.A (i I)) (co.E I) (co.a (i I)) (s.W (Im1 I)) (U (Im1 I))
    (T (i I)) g) s.W
  ⟨T, U, V, W⟩

/-- `while _I_next.size:` — superlink.py 2208–2223. -/
def fwdLoop (t : Tables) (g : K) (co : Coef K) : ℕ → List ℕ → Fwd K → Option (Fwd K)
  | _, [], s => some s
  | 0, _ :: _, _ => none
  | fuel + 1, I :: Is, s =>
    fwdLoop t g co fuel (((I :: Is).map t.forwardII).filter (fun I => !t.isEnd I)) (fwdBody t g co (I :: Is) s)

/-- `forward_recurrence` — superlink.py 2161–2233. -/
def forwardRecurrence (t : Tables) (o : Bool) (g : K) (co : Coef K) (fuel : ℕ) (s : Fwd K) : Option (Fwd K) :=
  (fwdLoop t g co fuel (((List.range t.NK).map t.I_2k).filter (fun I => !t.isEnd I)) (fwdInit t o g co s)).map
    (fwdInit t o g co)

/-- Values written by the backward sweep for one link. -/
structure BV (K : Type*) where
  O : K
  X : K
  Y : K
  Z : K

/-- superlink.py 2256–2269, the last link of a superlink: `I_N` penultimate junction, `IE` last one. -/
def bwdStart (o : Bool) (g : K) (co : Coef K) (I_N IE i_n : ℕ) : BV K :=
  let O := O_nk (co.a i_n) (co.b i_n) (co.c i_n)
  { O := O
    X := X_Nk (co.A i_n) (co.E I_N) (co.a i_n) O g
    Y := if o then Y_Nk (co.P i_n) (co.D I_N) (co.a i_n) O 0 0
         else Y_Nk (co.P i_n) (co.D I_N) (co.a i_n) O (co.c i_n) (co.D IE)
    Z := if o then Z_Nk (co.A i_n) O 0 0 g else Z_Nk (co.A i_n) O (co.c i_n) (co.E IE) g }

/-- `_O_ik[_i_nk] = _O_nk`, … — superlink.py 2271–2274, and again 2294–2297. -/
def bwdInit (t : Tables) (o : Bool) (g : K) (co : Coef K) (s : Bwd K) : Bwd K :=
  let st := fun k => bwdStart o g co (t.I_Nk k) (t.fin k) (t.i_nk k)
  let ks := List.range t.NK
  ⟨put ks t.i_nk (fun k => (st k).O) s.O, put ks t.I_Nk (fun k => (st k).X) s.X,
    put ks t.I_Nk (fun k => (st k).Y) s.Y, put ks t.I_Nk (fun k => (st k).Z) s.Z⟩

/-- Body of the `while` loop — superlink.py 2279–2291. -/
def bwdBody (t : Tables) (g : K) (co : Coef K) (Is : List ℕ) (s : Bwd K) : Bwd K :=
  let Ip1 := t.forwardII
  let i := t.forwardIi
  let O := put Is i (fun I => O_ik (co.a (i I)) (co.b (i I)) (co.c (i I)) (co.A (i I)) (co.E (Ip1 I))
    (s.X (Ip1 I)) g) s.O
  let X := put Is (fun I => I) (fun I => X_Ik (co.A (i I)) (co.E I) (co.a (i I)) (O (i I)) g) s.X
  let Y := put Is (fun I => I) (fun I => Y_Ik (co.P (i I)) (co.a (i I)) (co.D I) (co.D (Ip1 I)) (co.c (i I))
    (co.A (i I)) (co.E (Ip1 I)) (s.Y (Ip1 I)) (X (Ip1 I)) (O (i I)) g) s.Y
  let Z := put Is (fun I => I) (fun I => Z_Ik (co.A (i I)) (co.E (Ip1 I)) (co.c (i I)) (s.Z (Ip1 I)) (X (Ip1 I))
    (O (i I)) g) s.Z
  ⟨O, X, Y, Z⟩

/-- `while _I_next.size:` — superlink.py 2278–2292. -/
def bwdLoop (t : Tables) (g : K) (co : Coef K) : ℕ → List ℕ → Bwd K → Option (Bwd K)
  | _, [], s => some s
  | 0, _ :: _, _ => none
  | fuel + 1, I :: Is, s =>
    bwdLoop t g co fuel (((I :: Is).filter (fun I => !t.isStart I)).map t.backwardII) (bwdBody t g co (I :: Is) s)

/-- `backward_recurrence` — superlink.py 2233–2302. -/
def backwardRecurrence (t : Tables) (o : Bool) (g : K) (co : Coef K) (fuel : ℕ) (s : Bwd K) : Option (Bwd K) :=
  (bwdLoop t g co fuel ((((List.range t.NK).map t.I_Nk).filter (fun I => !t.isStart I)).map t.backwardII)
    (bwdInit t o g co s)).map (bwdInit t o g co)

/-- The scalar function `V_Ik` of the numba class (nsuperlink.py 2418–2435) with the exception of its unguarded
quotient `t_3 * t_4 / t_5` (2432). -/
def numbaV (P_ik a_ik D_Ik D_Ip1k c_ik A_ik E_Ik V_Im1k U_Im1k T_ik g : K) : Except Link.PyErr K :=
  if U_Im1k - E_Ik = 0 then .error .zeroDivision
  else .ok (V_Ik P_ik a_ik D_Ik D_Ip1k c_ik A_ik E_Ik V_Im1k U_Im1k T_ik g)

end Pipedream.Base
