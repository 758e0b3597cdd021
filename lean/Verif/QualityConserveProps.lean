import Verif.QualityMass

/-!
# C57 for the step of the water-quality model

`C57_conserved_iff` is about one control volume satisfying the discretised equation. Here the volumes are those of a network and
the concentrations those a step returns (nquality.py 952–1003), so that an error in any coefficient of the transport equations
shows.
-/

namespace Pipedream.Quality

open Pipedream.Network Pipedream.Link Pipedream.Sweep

section

variable {K : Type*} [Field K] [LinearOrder K] [IsStrictOrderedRing K]
variable {w : Wiring} {p : Params K} {y : Hydro K} {inp : Inputs K} {c : Conc K}

/-- What a control volume holding `V * b` after and `V_prev * a` before the step should satisfy: the change is what sources
brought less what left through the faces. -/
def Conserves (dt V V_prev a b net src : K) : Prop := V * b - V_prev * a = dt * (src - net)

/-- **C57 for a step.** In the result of a step with substances which do not react, every control volume of the network conserves
contaminant if and only if its volume or its concentration did not change. -/
theorem C57_step (W : Wired w) (P : Physical w p y inp) (B : WaterBalance w y inp) {wk : Work K} (hm : CleanMats w wk.mats)
    {lo m M : K} {hi : Option K} (hlo : lo ≤ m) (hhi : ∀ q, hi = some q → M ≤ q)
    (R : ReactGe w m p) (C : AllGe w m c) (Ci : InGe w m inp c) (R' : ReactLe w M p) (C' : AllLe w M c) (Ci' : InLe w M inp c)
    (inert : rates p = Conc.const 0) {x : ℕ → K} (hx : Solved w p y inp wk c x) :
    let new := advance w p lo hi y inp wk c x
    (∀ i, i < w.M → w.bc i = false →
      (Conserves y.dt (y.V i) (y.V_prev i) (c.j i) (new.j i) (superNet w p y new i) (inp.Q_0j i * inp.c_0j i)
        ↔ y.V i = y.V_prev i ∨ new.j i = c.j i)) ∧
    ∀ k, k < w.ix.NK →
      (∀ j, j < w.ix.nk k → let i := w.ix.i_1k k + j
        (Conserves y.dt (y.dx i * y.A i) (y.dx i * y.A_prev i) (c.i i) (new.i i)
          (linkFluxDn p y i (new.i i) (new.I (w.ix.I_1k k + (j + 1))) - linkFluxUp p y i (new.I (w.ix.I_1k k + j)) (new.i i)) 0
          ↔ y.dx i * y.A i = y.dx i * y.A_prev i ∨ new.i i = c.i i)) ∧
      (∀ j, j ≤ w.ix.nk k → let I := w.ix.I_1k k + j
        (Conserves y.dt (y.A_S I * y.h I) (y.A_S I * y.h_prev I) (c.I I) (new.I I) (nodeOut w p y new k j - nodeIn w p y new k j)
          (inp.Q_0I I * inp.c_0I I) ↔ y.A_S I * y.h I = y.A_S I * y.h_prev I ∨ new.I I = c.I I)) ∧
      (Conserves y.dt (y.dx_u k * y.A_u k) (y.dx_u k * y.A_u_prev k) (c.u k) (new.u k)
        (uFluxDn p y k (new.u k) (new.I (w.ix.I_1k k + 0)) - uFluxUp p y k (new.j (w.Ju k)) (new.u k)) 0
        ↔ y.dx_u k * y.A_u k = y.dx_u k * y.A_u_prev k ∨ new.u k = c.u k) ∧
      (Conserves y.dt (y.dx_d k * y.A_d k) (y.dx_d k * y.A_d_prev k) (c.d k) (new.d k)
        (dFluxDn p y k (new.d k) (new.j (w.Jd k)) - dFluxUp p y k (new.I (w.ix.I_1k k + w.ix.nk k)) (new.d k)) 0
        ↔ y.dx_d k * y.A_d k = y.dx_d k * y.A_d_prev k ∨ new.d k = c.d k) := by
  intro new
  have T : Transport w p y inp c new := (C74_maximum_principle W P B hm hlo hhi R C Ci R' C' Ci' hx).1
  have d0 := P.dt.ne'
  have k0 : ∀ i, p.Krj i = 0 := fun i => congrFun (congrArg Conc.j inert) i
  have k1 : ∀ i, p.KrI i = 0 := fun i => congrFun (congrArg Conc.I inert) i
  have k2 : ∀ i, p.Kr i = 0 := fun i => congrFun (congrArg Conc.i inert) i
  refine ⟨fun i hi hb => C57_conserved_iff d0 ?_, fun k hk => ⟨fun j hj => C57_conserved_iff d0 ?_,
    fun j hj => C57_conserved_iff d0 ?_, C57_conserved_iff d0 (T.links k hk).up, C57_conserved_iff d0 (T.links k hk).dn⟩⟩
  · have := T.super i hi hb; rwa [k0] at this
  · have := (T.links k hk).link j hj; rwa [k2] at this
  · have := (T.links k hk).node j hj; rwa [k1] at this

end

namespace Ex

/-- The network of `QualityMass` while its first superjunction fills from 20 to 30 m³. -/
def yFill : Hydro ℚ := { y with V := fun i => if i = 0 then 30 else 20 }
def inpFill : Inputs ℚ := { inp with Q_0j := fun _ => 3 }

theorem physicalFill : Physical w p yFill inpFill := by
  refine ⟨?_, ?_, ?_, ?_, ?_, ?_, ?_, ?_, ?_, ?_, ?_, ?_, ?_, ?_, ?_, ?_, ?_⟩ <;> simp [p, y, inp, yFill, inpFill] <;>
    intros <;> split_ifs <;> norm_num

theorem balanceFill : WaterBalance w yFill inpFill := by
  refine ⟨fun _ _ _ _ => by simp [y, yFill], fun k _ j _ => ?_, fun _ _ => by simp [y, yFill], fun _ _ => by simp [y, yFill],
    fun i hi hb => ?_⟩
  · simp only [nodeQout, nodeQin, y, inp, yFill, inpFill]
    split_ifs <;> norm_num
  · have h : i = 0 := by
      have hi : i < 2 := hi
      by_contra h
      obtain rfl : i = 1 := by omega
      simp [w] at hb
    subst h
    simp [superQ, ctrlQ, w, y, yFill, inpFill]
    norm_num

/-- **C57, violated by a step.** A superjunction fills with water of concentration 5 while its own is 1: the step does not
conserve the contaminant in it. -/
theorem C57_step_violated : ∃ x, Solved w p yFill inpFill wk c x ∧
    let new := advance w p 0 none yFill inpFill wk c x
    ¬ Conserves yFill.dt (yFill.V 0) (yFill.V_prev 0) (c.j 0) (new.j 0) (superNet w p yFill new 0)
      (inpFill.Q_0j 0 * inpFill.c_0j 0) := by
  obtain ⟨x, hx⟩ := (C75_solvable (c := c) wired physicalFill balanceFill clean).1
  have r : ReactGe w (1 : ℚ) p := by constructor <;> simp [p]
  have cc : AllGe w (1 : ℚ) c := by constructor <;> simp [c, Conc.const]
  have ci : InGe w (1 : ℚ) inpFill c := by refine ⟨?_, ?_, ?_⟩ <;> simp [inp, inpFill]
  have r' : ReactLe w (5 : ℚ) p := by constructor <;> simp [p]
  have cc' : AllLe w (5 : ℚ) c := by refine ⟨?_, ?_, ?_, ?_, ?_⟩ <;> simp [c, Conc.const]
  have ci' : InLe w (5 : ℚ) inpFill c := by refine ⟨?_, ?_, ?_⟩ <;> simp [inp, inpFill] <;> intros <;> norm_num
  refine ⟨x, hx, ?_⟩
  intro new
  have h := (C57_step wired physicalFill balanceFill clean (lo := 0) (m := 1) (M := 5) (hi := none) (by norm_num) (by simp)
    r cc ci r' cc' ci' rfl hx).1 0 (by simp [w]) (by simp [w])
  rw [h]
  obtain ⟨T, ge, -⟩ := C74_maximum_principle wired physicalFill balanceFill clean (lo := 0) (m := 1) (M := 5) (hi := none)
    (by norm_num) (by simp) r cc ci r' cc' ci' hx
  have s := T.super 0 (by simp [w]) (by simp [w])
  have u := ge.u 0 (by simp [w])
  change CellEq _ _ _ _ _ (new.j 0) (superNet w p yFill new 0) _ at s
  change 1 ≤ new.u 0 at u
  rintro (e | e)
  · norm_num [yFill, y] at e
  · have n : superNet w p yFill new 0 = flux 1 4 (new.j 0) (new.u 0) + flux 1 0 (new.j 0) (new.j 1) := by
      norm_num [superNet, ctrlNet, w, uFluxUp, dFluxDn, cond, p, y, yFill]
    rw [n, e] at s
    norm_num [CellEq, flux, upwind, yFill, inpFill, y, inp, p, c, Conc.const] at s
    linarith

end Ex

end Pipedream.Quality
