import Verif.OrderProps

/-!
# Model of the banded solve

`adjacency_matrix`, `_compute_bandwidth`, `_to_banded`, `_initialize_with_permuted_columns`
(superlink.py 928–1000), `numba_create_banded` (nsuperlink.py 3029–3039, identical in nquality.py
1572–1582) and `solve_banded_matrix` (nsuperlink.py 1343–1383).
-/

namespace Pipedream.Network

variable {K : Type*}

/-- One `At[J_u, J_d] = 1; At[J_d, J_u] = 1` over a group of elements — superlink.py 943–946. The code
concatenates the index arrays of the four element kinds first; writing the groups one after the other
stores the same ones. -/
def markEdges (n : ℕ) (Ju Jd : ℕ → ℕ) (At : ℕ → ℕ → Bool) : ℕ → ℕ → Bool :=
  forRange n (fun k At => upd2 (upd2 At (Ju k) (Jd k) true) (Jd k) (Ju k) true) At

/-- `adjacency_matrix` — superlink.py 928–947. -/
def adjacency (net : Net K) : ℕ → ℕ → Bool :=
  let At : ℕ → ℕ → Bool := fun _ _ => false
  let At := markEdges net.links.n net.links.Ju net.links.Jd At
  let At := markEdges net.orifices.n net.orifices.Ju net.orifices.Jd At
  let At := markEdges net.weirs.n net.weirs.Ju net.weirs.Jd At
  markEdges net.pumps.n net.pumps.Ju net.pumps.Jd At

/-- `np.diag(At, k=k).any()` for an `M × M` matrix. -/
def diagAny (At : ℕ → ℕ → Bool) (M k : ℕ) : Bool := (List.range (M - k)).any fun i => At i (i + k)

/-- The loop of `_compute_bandwidth` — superlink.py 952–956: `fuel` rounds remain, `k` is the next
diagonal, `bw` the bandwidth so far; `break` at the first empty diagonal. -/
def bandwidthLoop (At : ℕ → ℕ → Bool) (M : ℕ) : (fuel k bw : ℕ) → ℕ
  | 0, _, bw => bw
  | fuel + 1, k, bw => if diagAny At M k then bandwidthLoop At M fuel (k + 1) k else bw

/-- `_compute_bandwidth` — superlink.py 949–957. -/
def bandwidth (At : ℕ → ℕ → Bool) (M : ℕ) : ℕ := bandwidthLoop At M (M - 1) 1 0

/-- `numba_create_banded` — nsuperlink.py 3029–3039. The negative indices `-j - 1`, `-j - 2 - n` of the
code are `M - 1 - j`, `M - 2 - n - j`. -/
def createBanded [Zero K] (l : ℕ → ℕ → K) (bw M : ℕ) : ℕ → ℕ → K :=
  let AB : ℕ → ℕ → K := fun _ _ => 0
  let AB := forRange M (fun i AB => upd2 AB bw i (l i i)) AB
  forRange bw (fun n AB =>
    forRange (M - n - 1) (fun j AB =>
      let AB := upd2 AB (bw - n - 1) (M - 1 - j) (l (M - 2 - n - j) (M - 1 - j))
      upd2 AB (bw + n + 1) j (l (j + n + 1) j)) AB) AB

/-- The matrix `scipy.linalg.solve_banded((bw, bw), AB, r)` solves with, by its documentation:
`AB[bw + i - j, j] = a[i, j]` inside the band, zero outside. -/
def bandedMatrix [Zero K] (AB : ℕ → ℕ → K) (bw : ℕ) (i j : ℕ) : K :=
  if i ≤ j + bw ∧ j ≤ i + bw then AB (bw + i - j) j else 0

/-- Breadth-first numbering, one step at a time: `Bfs adj M order p` holds when `order` is the list of
nodes numbered so far and the first `p` of them have had their neighbours numbered. This is the
Cuthill–McKee procedure with the choices (start nodes, order of the neighbours: `scipy` sorts them by
degree) left open. -/
inductive Bfs (adj : ℕ → ℕ → Bool) (M : ℕ) : List ℕ → ℕ → Prop
  | nil : Bfs adj M [] 0
  | seed {o : List ℕ} (v : ℕ) : Bfs adj M o o.length → v < M → v ∉ o → Bfs adj M (o ++ [v]) o.length
  | expand {o : List ℕ} {p : ℕ} (hp : p < o.length) (new : List ℕ) : Bfs adj M o p → new.Nodup →
      (∀ v, v ∈ new ↔ v < M ∧ v ∉ o ∧ adj o[p] v = true) → Bfs adj M (o ++ new) (p + 1)

/-- `reverse_cuthill_mckee(At)` — superlink.py 959–963, by specification: the reverse of a complete
breadth-first numbering. -/
def ReverseCuthillMcKee (adj : ℕ → ℕ → Bool) (M : ℕ) (perm : List ℕ) : Prop :=
  ∃ o, Bfs adj M o o.length ∧ o.length = M ∧ perm = o.reverse

/-- `perm_inv = np.argsort(permutations)` — superlink.py 975: node `permutations[p]` gets number `p`.
The rest of `_initialize_with_permuted_columns` (976–1000) is `Net.renumber`. -/
def IsArgsort (perm : List ℕ) (π : ℕ → ℕ) : Prop := ∀ p (h : p < perm.length), π perm[p] = p

end Pipedream.Network
