import Verif.WholeModel

/-!
# Models without depth limits

Without a column `max_depth` in the table of superjunctions, or of superlinks, the limit is `np.inf` (superlink.py 477–485). The
step of `StepModel` takes the limits as numbers. Here the step is written down with limits that may be missing; what depends on the
limits is written out again, everything else is the step of `StepModel`.
-/

namespace Pipedream.Step

open Pipedream.Sweep Pipedream.Link Pipedream.Superlink Pipedream.Control Pipedream.Network
open Pipedream.Geometry Pipedream.Interp

noncomputable section

/-- The limits: superlink.py 477–480 (superjunctions), 482–485 (superlinks); `none` is `np.inf`. -/
structure Limits where
  J : ℕ → Option ℝ
  K : ℕ → Option ℝ

/-- Head limits — nsuperlink.py 1337–1339 and 1379–1381; `np.minimum(H, z + np.inf)` is `H`. -/
def clipHeadL (z_inv : ℕ → ℝ) (lim : ℕ → Option ℝ) (x : ℕ → ℝ) : ℕ → ℝ := fun i =>
  match lim i with
  | none => max (x i) (z_inv i)
  | some d => min (max (x i) (z_inv i)) (z_inv i + d)

/-- The two successive `if` clips — nsuperlink.py 2230–2233; nothing is larger than `np.inf`. -/
def clipDepthL (min_depth : ℝ) (lim : Option ℝ) (h : ℝ) : ℝ :=
  let h := if h < min_depth then min_depth else h
  match lim with
  | none => h
  | some d => if h > d then d else h

/-- Body of the inner loop of `numba_solve_internals` — nsuperlink.py 2224–2233. -/
def internalsNextL (f : Fwd ℝ) (bw : Bwd ℝ) (min_depth : ℝ) (lim : Option ℝ) (h_1 h_Np1 : ℝ) (I_N i_n : ℕ)
    (j : ℕ) (s : HQ ℝ) : HQ ℝ :=
  let I := I_N - j
  let Ip1 := I + 1
  let i := i_n - j
  let Q := upd s.Q i (Q_i_f (s.h Ip1) h_1 (f.U I) (f.V I) (f.W I))
  let h := upd s.h I (clipDepthL min_depth lim (h_i_b (Q i) h_Np1 (bw.X I) (bw.Y I) (bw.Z I)))
  ⟨h, Q⟩

/-- Body of the outer loop of `numba_solve_internals` — nsuperlink.py 2209–2240. -/
def internalsSuperlinkL (f : Fwd ℝ) (bw : Bwd ℝ) (min_depth : ℝ) (lim : Option ℝ) (h_u h_d : ℝ)
    (n I_1 i_1 : ℕ) (first_link_backwards : Bool) (s : HQ ℝ) : HQ ℝ :=
  let i_n := i_1 + n - 1
  let I_Np1 := I_1 + n
  let I_N := I_Np1 - 1
  let h_1 := h_u
  let h_Np1 := h_d
  let s := { s with h := upd (upd s.h I_1 h_1) I_Np1 h_Np1 }
  let s := forRange (n - 1) (internalsNextL f bw min_depth lim h_1 h_Np1 I_N i_n) s
  if first_link_backwards then
    { s with Q := upd s.Q i_1 (Q_i_b (s.h I_1) h_Np1 (bw.X I_1) (bw.Y I_1) (bw.Z I_1)) }
  else
    { s with Q := upd s.Q i_1 (Q_i_f (s.h (I_1 + 1)) h_1 (f.U I_1) (f.V I_1) (f.W I_1)) }

/-- `numba_solve_internals` — nsuperlink.py 2202–2241. -/
def numbaSolveInternalsL (f : Fwd ℝ) (bw : Bwd ℝ) (min_depth : ℝ) (lim : ℕ → Option ℝ) (h_uk h_dk : ℕ → ℝ)
    (i_1k I_1k nk : ℕ → ℕ) (NK : ℕ) (first_link_backwards : Bool) (s : HQ ℝ) : HQ ℝ :=
  forRange NK (fun k s => internalsSuperlinkL f bw min_depth (lim k) (h_uk k) (h_dk k)
    (nk k) (I_1k k) (i_1k k) first_link_backwards s) s

/-- `solve_internals_backwards` / `solve_internals_forwards` — nsuperlink.py 1385–1422 and 1424–1458. -/
def solveInternalsL (f : Fwd ℝ) (bw : Bwd ℝ) (min_depth : ℝ) (lim : ℕ → Option ℝ) (h_uk h_dk : ℕ → ℝ)
    (i_1k I_1k nk : ℕ → ℕ) (NK : ℕ) (first_link_backwards : Bool) (s : HQ ℝ) : HQ ℝ :=
  let s := numbaSolveInternalsL f bw min_depth lim h_uk h_dk i_1k I_1k nk NK first_link_backwards s
  { s with h := fun I => if s.h I < min_depth then min_depth else s.h I }

/-- New state after the head solve returned `x` — superlink.py 4057–4081. -/
def Model.advanceL (m : Model) (lim : Limits) (geo : Geo) (inp : Inputs) (wk : Work) (cur : Hyd) (co : Coef ℝ) (x : ℕ → ℝ) : Hyd :=
  let H := clipHeadL m.z_inv lim.J x
  let s := solveInternalsL (m.fwd wk co) (m.bwd wk co) m.min_depth lim.K
    (fun k => huk (m.endRec wk co k) (m.headCoef geo cur k) (H (m.Ju k)) (H (m.Jd k)))
    (fun k => hdk (m.endRec wk co k) (m.headCoef geo cur k) (H (m.Ju k)) (H (m.Jd k)))
    m.ix.i_1k m.ix.I_1k m.ix.nk m.ix.NK m.back ⟨cur.h, cur.Q⟩
  { H := H
    h := s.h
    Q := s.Q
    Qu := fun k => Quk (m.endRec wk co k) (m.headCoef geo cur k) (H (m.Ju k)) (H (m.Jd k))
    Qd := fun k => Qdk (m.endRec wk co k) (m.headCoef geo cur k) (H (m.Ju k)) (H (m.Jd k))
    Qo := fun o => orificeFlow m.g (geo.Ao o) (m.Co o) (H (m.Juo o)) (H (m.Jdo o)) (inp.u_o o)
      (geo.V (m.Juo o)) (geo.V (m.Jdo o)) inp.dt (m.orifice o)
    Qw := fun w => weirFlow (H (m.Juw w)) (H (m.Jdw w)) (inp.u_w w) (m.weir w)
    Qp := fun p => pumpFlow (H (m.Jup p)) (H (m.Jdp p)) (inp.u_p p) (m.pump p) }

/-- One call `_setup_step` + `_solve_step` (superlink.py 4015–4083) of a model with the limits `lim`; the limits `m.max_depth`,
`m.max_depth_k` are not used. -/
def CallsL (m : Model) (P : Plan) (lim : Limits) (first : Bool) (inp : Inputs) (o o' : Obj) : Prop :=
  ∃ Ao co x,
    (∀ a, a < m.n_o →
      orificeArea (o.hid.Ao a) (P.oShape a) (P.oGP a) (m.orificeDepth o.cur a) (inp.u_o a) = .ok (Ao a)) ∧
    Pass m (m.geoOf P o.hid Ao o.cur) inp o.wk (if first then o.cur else o.saved) o.cur co x ∧
    o' = ⟨if first then o.cur else o.saved, m.advanceL lim (m.geoOf P o.hid Ao o.cur) inp o.wk o.cur co x,
      m.work (m.geoOf P o.hid Ao o.cur) inp o.wk o.cur co, m.nextHidden Ao o.cur⟩

/-- A sequence of calls. -/
def HistoryL (m : Model) (P : Plan) (lim : Limits) : List (Bool × Inputs) → Obj → Obj → Prop
  | [], o, o' => o' = o
  | q :: rest, o, o' => ∃ o1, CallsL m P lim q.1 q.2 o o1 ∧ HistoryL m P lim rest o1 o'

/-- The model with given limits. -/
def Model.limit (m : Model) (DJ DK : ℕ → ℝ) : Model := { m with max_depth := DJ, max_depth_k := DK }

end

end Pipedream.Step
