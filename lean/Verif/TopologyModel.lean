import Verif.Basic
import Verif.SweepProps
import Verif.LinkModel

/-!
# Construction of a model: index tables, generated internals, orientation, permutation

`SuperLink.__init__` (`pipedream_solver/superlink.py:281-773`),
`_initialize_with_permuted_columns` (965-1000) and `_configure_internals_variable` (1002-1123).

Index arrays are functions `ℕ → ℕ`; tables produced by list operations of numpy (`np.delete`,
`np.repeat`) are lists.
-/

namespace Pipedream.Topology

open Pipedream.Sweep Pipedream.Link

/-! ### Index tables derived by the constructor -/

/-- numpy fancy assignment `a[idx] = val` with `n = len(idx)`: later entries win. -/
def scatter {α : Type*} (n : ℕ) (idx : ℕ → ℕ) (val : ℕ → α) (a : ℕ → α) : ℕ → α :=
  forRange n (fun i a => upd a (idx i) (val i)) a

/-- The link, junction and superlink tables as given to (or generated by) the constructor
(superlink.py 405–413). -/
structure Tables where
  /-- number of superlinks -/
  NK : ℕ
  /-- number of junctions, `junctions.shape[0]` -/
  NI : ℕ
  /-- number of links, `links.shape[0]` -/
  NL : ℕ
  /-- `_Ik = links['j_0']` -/
  Ik : ℕ → ℕ
  /-- `_Ip1k = links['j_1']` -/
  Ip1k : ℕ → ℕ
  /-- `_ki = links['k']` -/
  ki : ℕ → ℕ
  /-- `_kI = junctions['k']` -/
  kI : ℕ → ℕ
  /-- `start_nodes = superlinks['j_0']` -/
  start : ℕ → ℕ
  /-- `end_nodes = superlinks['j_1']` -/
  fin : ℕ → ℕ

variable (t : Tables)

/-- `_is_start` (superlink.py 414, 416). -/
def Tables.isStart : ℕ → Bool := scatter t.NK t.start (fun _ => true) (fun _ => false)

/-- `_is_end` (superlink.py 415, 417). -/
def Tables.isEnd : ℕ → Bool := scatter t.NK t.fin (fun _ => true) (fun _ => false)

/-- `_is_penult = np.roll(_is_end, -1)` (superlink.py 419). -/
def Tables.isPenult : ℕ → Bool := fun I => t.isEnd ((I + 1) % t.NI)

/-- `nk = np.bincount(_ki)` (superlink.py 421): number of links with `ki = k`. -/
def Tables.nk (k : ℕ) : ℕ := ((List.range t.NL).filter (fun i => t.ki i = k)).length

/-- `forward_I_I` (superlink.py 423–424). -/
def Tables.forwardII : ℕ → ℕ := scatter t.NL t.Ik t.Ip1k (fun I => I)

/-- `backward_I_I` (superlink.py 425–426). -/
def Tables.backwardII : ℕ → ℕ := scatter t.NL t.Ip1k t.Ik (fun I => I)

/-- `forward_I_i` before the correction of the end nodes (superlink.py 427–428); `_ik` is
`0, 1, …` (the index of the link table). -/
def Tables.forwardIi0 : ℕ → ℕ := scatter t.NL t.Ik (fun i => i) (fun I => I)

/-- `backward_I_i` before the correction of the start nodes (superlink.py 429–430). -/
def Tables.backwardIi0 : ℕ → ℕ := scatter t.NL t.Ip1k (fun i => i) (fun I => I)

/-- `forward_I_i` (superlink.py 431). The code takes the value of `backward_I_i` at the *start*
nodes. -/
def Tables.forwardIi : ℕ → ℕ :=
  scatter t.NK t.fin (fun k => t.backwardIi0 (t.start k)) t.forwardIi0

/-- `backward_I_i` (superlink.py 432). -/
def Tables.backwardIi : ℕ → ℕ :=
  scatter t.NK t.start (fun k => t.forwardIi (t.start k)) t.backwardIi0

/-- `_i_1k` (superlink.py 655). -/
def Tables.i_1k (k : ℕ) : ℕ := t.forwardIi (t.start k)

/-- `_I_Nk` (superlink.py 665). -/
def Tables.I_Nk (k : ℕ) : ℕ := t.backwardII (t.fin k)

/-- `_i_nk` (superlink.py 666). -/
def Tables.i_nk (k : ℕ) : ℕ := t.backwardIi (t.fin k)

/-- `_I_2k` (superlink.py 654). -/
def Tables.I_2k (k : ℕ) : ℕ := t.forwardII (t.start k)

/-- `_link_start` (superlink.py 741, 743). -/
def Tables.linkStart : ℕ → Bool := scatter t.NK t.i_1k (fun _ => true) (fun _ => false)

/-- `_link_end` (superlink.py 742, 744). -/
def Tables.linkEnd : ℕ → Bool := scatter t.NK t.i_nk (fun _ => true) (fun _ => false)

/-- `_k_1k = np.cumsum(nk - 1) - (nk[0] - 1)` (superlink.py 656), in integers. -/
def Tables.k_1k (k : ℕ) : ℤ :=
  (∑ k' ∈ Finset.range (k + 1), ((t.nk k' : ℤ) - 1)) - ((t.nk 0 : ℤ) - 1)

/-- The index arrays handed to the sweeps. -/
def Tables.idx : Idx where
  NK := t.NK
  nk := t.nk
  I_1k := t.start
  i_1k := t.i_1k

/-- The index arrays handed to `node_coeffs`. -/
def Tables.nodeIdx : NodeIdx where
  kI := t.kI
  fwd := t.forwardIi
  bwd := t.backwardIi
  isStart := t.isStart
  isEnd := t.isEnd

/-! ### Tables generated by `_configure_internals_variable` -/

/-- `np.repeat(a, n)`. -/
def repeatL {α : Type*} (n : ℕ) (a : List α) : List α := a.flatMap (List.replicate n)

/-- `np.delete(a, idx)` for `a = np.arange(N)`. -/
def deleteArange (N : ℕ) (idx : List ℕ) : List ℕ := (List.range N).filter (fun j => j ∉ idx)

/-- `np.cumsum(total_elems)[k]` with `total_elems = np.repeat(internal_links, NK) + 1`
(superlink.py 1018–1019). -/
def cumTotal (n k : ℕ) : ℕ := ∑ _k' ∈ Finset.range (k + 1), (n + 1)

/-- `upstream_nodes` (superlink.py 1020). -/
def upstreamNodes (n NK : ℕ) : List ℕ := (List.range NK).map fun k => cumTotal n k - (n + 1)

/-- `downstream_nodes` (superlink.py 1021). -/
def downstreamNodes (n NK : ℕ) : List ℕ := (List.range NK).map fun k => cumTotal n k - 2

/-- The generated tables for `NK` superlinks (numbered `0 … NK-1`, the index of the superlink table)
with `n = internal_links` (superlink.py 1013–1106). `superlinks['j_0']` is the smallest `j_0` of its
links, `superlinks['j_1']` the largest `j_1`. -/
def generated (n NK : ℕ) : Tables where
  NK := NK
  NI := (n + 1) * NK
  NL := n * NK
  Ik := fun i => (deleteArange ((n + 1) * NK) ((downstreamNodes n NK).map (· + 1))).getD i 0
  Ip1k := fun i => (deleteArange ((n + 1) * NK) (upstreamNodes n NK)).getD i 0
  ki := fun i => (repeatL n (List.range NK)).getD i 0
  kI := fun I => (repeatL (n + 1) (List.range NK)).getD I 0
  start := fun k => (((List.range (n * NK)).filter
      (fun i => (repeatL n (List.range NK)).getD i 0 = k)).map
      (fun i => (deleteArange ((n + 1) * NK) ((downstreamNodes n NK).map (· + 1))).getD i 0)).min?.getD 0
  fin := fun k => (((List.range (n * NK)).filter
      (fun i => (repeatL n (List.range NK)).getD i 0 = k)).map
      (fun i => (deleteArange ((n + 1) * NK) (upstreamNodes n NK)).getD i 0)).max?.getD 0

/-! ### Generated lengths and elevations -/

variable {K : Type*} [Field K] [LinearOrder K]

/-- `np.linspace(0, L, N)[j]` (`N ≥ 2`): equally spaced points. -/
def linspace (L : K) (N j : ℕ) : K := (j : K) * (L / ((N : K) - 1))

/-- `_m` (superlink.py 1066). -/
def slopeM (z_uk z_dk dx dx_uk dx_dk : K) : K := (z_dk - z_uk) / (dx + dx_uk + dx_dk)

/-- `_b0` (superlink.py 1067). -/
def interceptB0 (z_uk m dx_uk : K) : K := z_uk + m * dx_uk

/-- `_b1` (superlink.py 1068). -/
def interceptB1 (z_dk m dx_dk : K) : K := z_dk - m * dx_dk

/-- Positions of the `n + 1` junctions of a superlink without mobile element (superlink.py
1097–1098). -/
def genX (dx : K) (n j : ℕ) : K := linspace dx (n + 1) j

/-- `zz = xx * _m + _b0` (superlink.py 1099). -/
def genZ (m b0 : K) (x : ℕ → K) (j : ℕ) : K := x j * m + b0

/-- `dxdx = np.diff(xx)` (superlink.py 1104). -/
def diff (x : ℕ → K) (i : ℕ) : K := x (i + 1) - x i

/-- `_xc` (superlink.py 1075–1078): initial position of the mobile junction; `n` is the number of
links. -/
def mobileCentre (dx : K) (n : ℕ) : K :=
  if (n + 1) % 2 ≠ 0 then dx / 2 else dx / 2 + dx / (n : K) / 2

/-- Positions before sorting with a mobile element: `n` fixed points and the mobile one last
(superlink.py 1078–1080). -/
def mobileX (dx : K) (n j : ℕ) : K := if j = n then mobileCentre dx n else linspace dx n j

/-- `np.argsort` on an array of `N` entries, by specification: a permutation of `0 … N-1` that puts
the entries in ascending order. -/
structure IsArgsort (N : ℕ) (x : ℕ → K) (ix : ℕ → ℕ) : Prop where
  lt : ∀ i, i < N → ix i < N
  inj : ∀ i j, i < N → j < N → ix i = ix j → i = j
  sorted : ∀ i j, i ≤ j → j < N → x (ix i) ≤ x (ix j)

/-- `_S_o_ik` (superlink.py 497–498). -/
def linkSlope (z dx : ℕ → K) (i : ℕ) : K := (z i - z (i + 1)) / dx i

/-- `_S_o_uk` (superlink.py 732, 734, 736). -/
def endSlopeU (z_uk z_first dx_uk : K) : K := if dx_uk > 0 then (z_uk - z_first) / dx_uk else 0

/-- `_S_o_dk` (superlink.py 733, 735, 737): the code tests `_dx_uk > 0`. -/
def endSlopeD (z_dk z_last dx_uk dx_dk : K) : K :=
  if dx_uk > 0 then (z_last - z_dk) / dx_dk else 0

/-! ### Nominal direction of a superlink -/

/-- The exchange of `sj_0` and `sj_1` (superlink.py 300–313): superjunctions with inverts `z`, the
offsets stay as they are. Returns `(sj_0, sj_1)`. -/
def orient (z : ℕ → K) (sj0 sj1 : ℕ) (inOff outOff : K) : ℕ × ℕ :=
  if z sj0 + inOff < z sj1 + outOff then (sj1, sj0) else (sj0, sj1)

/-- `_z_inv_uk` (superlink.py 376, 378). -/
def zInvU (z : ℕ → K) (sj0 sj1 : ℕ) (inOff outOff : K) : K :=
  z (orient z sj0 sj1 inOff outOff).1 + inOff

/-- `_z_inv_dk` (superlink.py 377, 379). -/
def zInvD (z : ℕ → K) (sj0 sj1 : ℕ) (inOff outOff : K) : K :=
  z (orient z sj0 sj1 inOff outOff).2 + outOff

/-! ### Permutation of the superjunctions (`auto_permute=True`) -/

/-- `perm_inv = np.argsort(permutations)` (superlink.py 975) for a permutation of `0 … M-1`, by
specification: the inverse. -/
structure IsPermInv (M : ℕ) (perm inv : ℕ → ℕ) : Prop where
  perm_lt : ∀ a, a < M → perm a < M
  inv_lt : ∀ j, j < M → inv j < M
  left : ∀ a, a < M → inv (perm a) = a
  right : ∀ j, j < M → perm (inv j) = j

/-- `superjunctions.index = perm_inv[id]; sort_index()` (superlink.py 978–980): row `a` of the sorted
table is the row whose new number is `a`. `rows j` is the row of superjunction `j` (with `id = j`);
the first such row is taken. -/
def permuteRows {α : Type*} (M : ℕ) (inv : ℕ → ℕ) (rows : ℕ → α) (a : ℕ) : Option α :=
  ((List.range M).find? (fun j => inv j = a)).map rows

/-- `superlinks['sj_0'] = perm_inv[superlinks['sj_0']]` (superlink.py 982–992). -/
def permuteEnds (inv : ℕ → ℕ) (J : ℕ → ℕ) (k : ℕ) : ℕ := inv (J k)

/-- Forcing in permuted order: `Q_in.iloc[:, model.permutations]` and the same for `H_bc`
(simulation.py 93, 99). -/
def permuteForcing (perm : ℕ → ℕ) (q : ℕ → K) (a : ℕ) : K := q (perm a)

/-- Column labels of recorded states: a name, or a number from the index of the table. -/
inductive Label where
  | name (s : String)
  | number (j : ℕ)

/-- `superjunction_names` (superlink.py 345–348): the `name` column if there is one, else the index of
the (already permuted and sorted) table. `names j` is the name of superjunction `j`. -/
def superjunctionNames (M : ℕ) (inv : ℕ → ℕ) (names : Option (ℕ → String)) (a : ℕ) :
    Option Label :=
  match names with
  | some nm => (permuteRows M inv nm a).map Label.name
  | none => (permuteRows M inv inv a).map Label.number

end Pipedream.Topology
