import Verif.BaseSweepModel

/-!
# The internal solve of the base class

`SuperLink.solve_internals_forwards` and `solve_internals_backwards` (`superlink.py:3199-3413`). All superlinks are advanced
together: the `while` loops carry parallel arrays (one entry per superlink that has not been finished), and every
statement works on whole arrays. `while` loops are run with fuel; `none` means that the loop is still running
when the fuel is used up.
-/

namespace Pipedream.Base

open Pipedream.Sweep Pipedream.Topology

variable {K : Type*} [Field K] [LinearOrder K]

/-- One entry of the parallel arrays `_Im1_next`, `_I_next`, `_I_1k_next`, `_I_Np1k_next`. -/
structure Ent where
  Im1 : ℕ
  I : ℕ
  I1 : ℕ
  IE : ℕ

/-- `a[p[es]] = v[es]`: all values are computed before any is written, later entries win. -/
def putAt {α : Type*} (es : List α) (p : α → ℕ) (v : α → K) (a : ℕ → K) : ℕ → K :=
  es.foldl (fun a e => upd a (p e) (v e)) a

/-- What the internal solve reads besides the recurrence coefficients: the ends of the superlinks, the continuity
coefficients, `min_depth`, and `_end_method == 'o'`. -/
structure Ends (K : Type*) where
  Qu : ℕ → K
  Qd : ℕ → K
  hu : ℕ → K
  hd : ℕ → K
  E : ℕ → K
  D : ℕ → K
  mn : K
  o : Bool

/-- Flow of the first link in `solve_internals_forwards` — superlink.py 3233–3240, again 3279–3286. -/
def firstF (t : Tables) (x : Ends K) (k : ℕ) : K :=
  if x.o then x.Qu k else x.Qu k - x.E (t.start k) * x.hu k + x.D (t.start k)

/-- Flow of the last link in `solve_internals_forwards` — superlink.py 3233–3240, again 3279–3286. -/
def lastF (t : Tables) (x : Ends K) (k : ℕ) : K :=
  if x.o then x.Qd k else x.Qd k + x.E (t.fin k) * x.hd k - x.D (t.fin k)

/-- Flow of the first link in `solve_internals_backwards` — superlink.py 3341–3348, again 3386–3393. -/
def firstB (t : Tables) (bw : Bwd K) (x : Ends K) (k : ℕ) : K :=
  if x.o then x.Qu k else bw.X (t.start k) * x.hu k + bw.Z (t.start k) * x.hd k + bw.Y (t.start k)

/-- Flow of the last link in `solve_internals_backwards` — superlink.py 3341–3348, again 3386–3393. -/
def lastB (t : Tables) (f : Fwd K) (x : Ends K) (k : ℕ) : K :=
  if x.o then x.Qd k else f.U (t.I_Nk k) * x.hd k + f.W (t.I_Nk k) * x.hu k + f.V (t.I_Nk k)

/-- `_Q_ik[_i_1k] = …`, `_Q_ik[_i_nk] = …`, `_h_Ik[_I_1k] = _h_uk`, `_h_Ik[_I_Np1k] = _h_dk`, in this order. -/
def setEnds (t : Tables) (x : Ends K) (q1 qn : ℕ → K) (s : HQ K) : HQ K :=
  let ks := List.range t.NK
  ⟨putAt ks t.fin x.hd (putAt ks t.start x.hu s.h), putAt ks t.i_nk qn (putAt ks t.i_1k q1 s.Q)⟩

/-- `_h_Ik[_I_next[_h_Ik[_I_next] < min_depth]] = min_depth` — superlink.py 3266, 3375. -/
def raise (mn : K) (es : List Ent) (h : ℕ → K) : ℕ → K :=
  putAt (es.filter (fun e => h e.I < mn)) (fun e => e.I) (fun _ => mn) h

/-- Body of the loop of `solve_internals_forwards` — superlink.py 3260–3270, with `_h_Ik_next_f` (3295–3299) and
`_Q_i_next_b` (3301–3305). -/
def intFwdBody (t : Tables) (f : Fwd K) (bw : Bwd K) (mn : K) (es : List Ent) (s : HQ K) : HQ K :=
  let h := putAt es (fun e => e.I) (fun e => safeDivide (s.Q (t.forwardIi e.Im1) - f.V e.Im1 - f.W e.Im1 * s.h e.I1)
    (f.U e.Im1)) s.h
  let h := raise mn es h
  ⟨h, putAt es (fun e => t.forwardIi e.I) (fun e => bw.X e.I * h e.I + bw.Y e.I + bw.Z e.I * h e.IE) s.Q⟩

/-- superlink.py 3271–3277. -/
def intFwdNext (t : Tables) (es : List Ent) : List Ent :=
  (es.map fun e => ⟨e.I, t.forwardII e.I, e.I1, e.IE⟩).filter fun e => e.I ≠ e.IE

/-- `while _I_next.size:` — superlink.py 3259–3277. -/
def intFwdLoop (t : Tables) (f : Fwd K) (bw : Bwd K) (mn : K) : ℕ → List Ent → HQ K → Option (HQ K)
  | _, [], s => some s
  | 0, _ :: _, _ => none
  | fuel + 1, e :: es, s => intFwdLoop t f bw mn fuel (intFwdNext t (e :: es)) (intFwdBody t f bw mn (e :: es) s)

/-- superlink.py 3243–3257; `sel` is `_supercritical` if `supercritical_only`, else true everywhere. -/
def intFwdStart (t : Tables) (sel : ℕ → Bool) : List Ent :=
  (((List.range t.NK).map fun k => (⟨t.start k, t.I_2k k, t.start k, t.fin k⟩ : Ent)).filter
    fun e => e.I ≠ e.IE).filter fun e => sel e.I

/-- `_h_Ik[_h_Ik < min_depth] = min_depth` — superlink.py 3290, 3397. -/
def floorAll (mn : K) (s : HQ K) : HQ K := { s with h := fun I => if s.h I < mn then mn else s.h I }

/-- `solve_internals_forwards` before the last clip — superlink.py 3199–3288. -/
def marchForwards (t : Tables) (f : Fwd K) (bw : Bwd K) (x : Ends K) (sel : ℕ → Bool) (fuel : ℕ) (s : HQ K) :
    Option (HQ K) :=
  (intFwdLoop t f bw x.mn fuel (intFwdStart t sel) (setEnds t x (firstF t x) (lastF t x) s)).map
    (setEnds t x (firstF t x) (lastF t x))

/-- `solve_internals_forwards` — superlink.py 3199–3293. -/
def internalsForwards (t : Tables) (f : Fwd K) (bw : Bwd K) (x : Ends K) (sel : ℕ → Bool) (fuel : ℕ) (s : HQ K) :
    Option (HQ K) := (marchForwards t f bw x sel fuel s).map (floorAll x.mn)

/-- Body of the loop of `solve_internals_backwards` — superlink.py 3368–3379, with `_h_Ik_next_b` (3403–3407) and
`_Q_im1k_next_f` (3409–3413). -/
def intBwdBody (t : Tables) (f : Fwd K) (bw : Bwd K) (mn : K) (es : List Ent) (s : HQ K) : HQ K :=
  let Im1 := fun e : Ent => t.backwardII e.I
  let h := putAt es (fun e => e.I) (fun e => safeDivide (s.Q (t.forwardIi e.I) - bw.Y e.I - bw.Z e.I * s.h e.IE)
    (bw.X e.I)) s.h
  let h := raise mn es h
  ⟨h, putAt es (fun e => t.forwardIi (Im1 e)) (fun e => f.U (Im1 e) * h e.I + f.V (Im1 e) + f.W (Im1 e) * h e.I1) s.Q⟩

/-- superlink.py 3380–3383 (`_Im1_next` is recomputed in every round, so the component `Im1` is not
read here). -/
def intBwdNext (t : Tables) (es : List Ent) : List Ent :=
  (es.map fun e => ⟨e.Im1, t.backwardII e.I, e.I1, e.IE⟩).filter fun e => e.I ≠ e.I1

/-- `while _I_next.size:` — superlink.py 3367–3383. -/
def intBwdLoop (t : Tables) (f : Fwd K) (bw : Bwd K) (mn : K) : ℕ → List Ent → HQ K → Option (HQ K)
  | _, [], s => some s
  | 0, _ :: _, _ => none
  | fuel + 1, e :: es, s => intBwdLoop t f bw mn fuel (intBwdNext t (e :: es)) (intBwdBody t f bw mn (e :: es) s)

/-- superlink.py 3351–3365; `sel` is `~_supercritical` if `subcritical_only`, else true everywhere. -/
def intBwdStart (t : Tables) (sel : ℕ → Bool) : List Ent :=
  (((List.range t.NK).map fun k => (⟨t.start k, t.I_Nk k, t.start k, t.fin k⟩ : Ent)).filter
    fun e => e.I1 ≠ e.I).filter fun e => sel e.I

/-- `solve_internals_backwards` before the last clip — superlink.py 3307–3395. -/
def marchBackwards (t : Tables) (f : Fwd K) (bw : Bwd K) (x : Ends K) (sel : ℕ → Bool) (fuel : ℕ) (s : HQ K) :
    Option (HQ K) :=
  (intBwdLoop t f bw x.mn fuel (intBwdStart t sel) (setEnds t x (firstB t bw x) (lastB t f x) s)).map
    (setEnds t x (firstB t bw x) (lastB t f x))

/-- `solve_internals_backwards` — superlink.py 3307–3401. -/
def internalsBackwards (t : Tables) (f : Fwd K) (bw : Bwd K) (x : Ends K) (sel : ℕ → Bool) (fuel : ℕ) (s : HQ K) :
    Option (HQ K) := (marchBackwards t f bw x sel fuel s).map (floorAll x.mn)

end Pipedream.Base
