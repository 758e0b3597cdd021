import Verif.QualityImportModel

/-!
# Construction of a water-quality model

`/repo/pipedream_solver/nquality.py` 97–225: the parameter tables, the initial concentrations and the hidden
step of a millionth of a second that ends the constructor.
-/

namespace Pipedream.Quality

open Pipedream.Step (Model Geo Hyd)

noncomputable section

/-- A parameter table of cells: reaction `K`, dispersion `D` (links only) and initial concentration `c_0`. -/
structure Table where
  K : ℕ → ℝ
  D : ℕ → ℝ
  c_0 : ℕ → ℝ

/-- Arguments of the constructor. `D_uk`, `D_dk` are optional columns of `superlink_params`. -/
structure Tables where
  superjunctions : Table
  bc : ℕ → Bool
  superlinks : Table
  junctions : Option Table
  links : Option Table
  D_uk : Option (ℕ → ℝ)
  D_dk : Option (ℕ → ℝ)
  c_min : ℝ
  c_max : Option ℝ

/-- Parameters — nquality.py 102–128; `kI` and `ki` are the superlinks of junctions and links. -/
def Tables.params (t : Tables) (kI ki : ℕ → ℕ) : Params ℝ where
  D i := match t.links with | some l => l.D i | none => t.superlinks.D (ki i)
  Kr i := match t.links with | some l => l.K i | none => t.superlinks.K (ki i)
  KrI I := match t.junctions with | some l => l.K I | none => t.superlinks.K (kI I)
  Krj := t.superjunctions.K
  D_u k := match t.D_uk with | some d => d k | none => t.superlinks.D k
  D_d k := match t.D_dk with | some d => d k | none => t.superlinks.D k

/-- Concentrations before the hidden step — nquality.py 103, 105–118, 200–201. -/
def Tables.conc (t : Tables) (m : Model) (kI ki : ℕ → ℕ) : Conc ℝ :=
  let cI : ℕ → ℝ := fun I => match t.junctions with | some l => l.c_0 I | none => t.superlinks.c_0 (kI I)
  { j := t.superjunctions.c_0
    I := cI
    i := fun i => match t.links with | some l => l.c_0 i | none => t.superlinks.c_0 (ki i)
    u := fun k => 0.5 * t.superjunctions.c_0 (m.Ju k) + 0.5 * cI (m.ix.I_1k k)
    d := fun k => 0.5 * t.superjunctions.c_0 (m.Jd k) + 0.5 * cI (m.ix.I_1k k + m.ix.nk k) }

/-- The zero-filled scratch arrays — nquality.py 162–199. -/
def blankWork : Work ℝ where
  mats := ⟨fun _ _ => 0, fun _ _ => 0, fun _ _ => 0, fun _ _ => 0⟩
  f := ⟨fun _ => 0, fun _ => 0, fun _ => 0, fun _ => 0⟩
  b := ⟨fun _ => 0, fun _ => 0, fun _ => 0, fun _ => 0⟩

/-- Arguments of the hidden step — nquality.py 225, 983–986, 678–684, 449–452: no boundary values, the inflows
of the last hydraulic step (`None` is zero), clean water. -/
def hiddenInputs (Q_in Q_0Ik : ℕ → ℝ) : Inputs ℝ where
  c_bc := none
  c_0j := fun _ => 0
  Q_0j := Q_in
  c_0I := fun _ => 0
  Q_0I := Q_0Ik

/-- Step size of the hidden step — nquality.py 225. -/
def hiddenDt : ℝ := 1e-6

/-- What the hidden step reads: the current state `next` of the hydraulic model and the state `prev` it saved
when its own last step began, whatever the size of that step. -/
def hiddenHydro (m : Model) (sh : Shapes) (geo : Geo) (prev next : Hyd) : Hydro ℝ :=
  hydro m sh geo hiddenDt prev next

/-- The linear solver of the hidden step returned `x` (by specification). -/
def HiddenSolved (t : Tables) (m : Model) (sh : Shapes) (geo : Geo) (kI ki : ℕ → ℕ) (prev next : Hyd)
    (Q_in Q_0Ik x : ℕ → ℝ) : Prop :=
  Solved (wiring m t.bc) (t.params kI ki) (hiddenHydro m sh geo prev next) (hiddenInputs Q_in Q_0Ik) blankWork
    (t.conc m kI ki) x

/-- Concentrations of the new model — nquality.py 225. -/
def newConc (t : Tables) (m : Model) (sh : Shapes) (geo : Geo) (kI ki : ℕ → ℕ) (prev next : Hyd)
    (Q_in Q_0Ik x : ℕ → ℝ) : Conc ℝ :=
  advance (wiring m t.bc) (t.params kI ki) t.c_min t.c_max (hiddenHydro m sh geo prev next)
    (hiddenInputs Q_in Q_0Ik) blankWork (t.conc m kI ki) x

end

end Pipedream.Quality
