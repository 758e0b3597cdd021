import Verif.SweepModel

/-!
# Specification of the discretised Saint-Venant equations of one superlink

Independent of the sweeps: just the two families of difference equations.
Local numbering: links `0 … n-1`, junctions `0 … n`; link `i` joins junction `i` to junction `i+1`.
`Qu` is the flow entering junction `0` from the upstream superjunction, `Qd` the flow leaving junction
`n` into the downstream superjunction.
-/

namespace Pipedream.Sweep

variable {K : Type*} [Field K] [LinearOrder K]

/-- Flow entering junction `I`. -/
def qIn (Q : ℕ → K) (Qu : K) (I : ℕ) : K := if I = 0 then Qu else Q (I - 1)

/-- Flow leaving junction `I`. -/
def qOut (n : ℕ) (Q : ℕ → K) (Qd : K) (I : ℕ) : K := if I = n then Qd else Q I

/-- The discretised equations of one superlink with `n` links:
momentum of each link and continuity of each junction (see `docs/governing-equations.md`). -/
structure SaintVenant (g : K) (co : Coef K) (n : ℕ) (Q h : ℕ → K) (Qu Qd : K) : Prop where
  momentum : ∀ i, i < n →
    co.a i * qIn Q Qu i + co.b i * Q i + co.c i * qOut n Q Qd (i + 1)
      = co.P i + g * co.A i * (h i - h (i + 1))
  continuity : ∀ I, I ≤ n →
    qOut n Q Qd I - qIn Q Qu I + co.E I * h I = co.D I

/-- Physical coefficients of one superlink: positive areas, upwinded advection coefficients
(`a, c ≤ 0`), positive total inertia+friction `a + b + c`, non-negative storage `E`.
`LinkModel`/`LinkProps` prove that the coefficients computed by the code satisfy this. -/
structure Physical (g : K) (co : Coef K) (n : ℕ) : Prop where
  g_pos : 0 < g
  A_pos : ∀ i, i < n → 0 < co.A i
  a_nonpos : ∀ i, i < n → co.a i ≤ 0
  c_nonpos : ∀ i, i < n → co.c i ≤ 0
  abc_pos : ∀ i, i < n → 0 < co.a i + co.b i + co.c i
  E_nonneg : ∀ I, I ≤ n → 0 ≤ co.E I

/-- Index layout of the superlinks in the global arrays: links and junctions of different superlinks
occupy disjoint index ranges, every superlink has at least one link. -/
structure Layout (NK : ℕ) (nk I_1k i_1k : ℕ → ℕ) : Prop where
  pos : ∀ k, k < NK → 1 ≤ nk k
  links_disjoint : ∀ k k', k < NK → k' < NK → k ≠ k' →
    ∀ j j', j < nk k → j' < nk k' → i_1k k + j ≠ i_1k k' + j'
  junctions_disjoint : ∀ k k', k < NK → k' < NK → k ≠ k' →
    ∀ j j', j ≤ nk k → j' ≤ nk k' → I_1k k + j ≠ I_1k k' + j'

end Pipedream.Sweep
