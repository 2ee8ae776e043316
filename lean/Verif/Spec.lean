import Verif.PyStr
import Verif.Num

/-!
# Specification

What the distribution strings, grids, probabilities and moments *mean*, independently of how
popkinmocks computes them.  Nothing in this file refers to the model of the code.
-/

open scoped Classical

noncomputable section

namespace PKM

/-- The discretisation: number of bins and bin edges of age `t`, velocity `v`, positions `x`,`y`
(called x1, x2 in the API) and metallicity `z`. Bin `i` of `t` is `[t i, t (i+1)]`. -/
structure Grid where
  nt : ℕ
  nv : ℕ
  nx : ℕ
  ny : ℕ
  nz : ℕ
  t : ℕ → ℝ
  v : ℕ → ℝ
  x : ℕ → ℝ
  y : ℕ → ℝ
  z : ℕ → ℝ

/-- A proper grid has at least one bin per axis and increasing edges. -/
structure Grid.Proper (g : Grid) : Prop where
  nt : 0 < g.nt
  nv : 0 < g.nv
  nx : 0 < g.nx
  ny : 0 < g.ny
  nz : 0 < g.nz
  t : ∀ i < g.nt, g.t i < g.t (i + 1)
  v : ∀ i < g.nv, g.v i < g.v (i + 1)
  x : ∀ i < g.nx, g.x i < g.x (i + 1)
  y : ∀ i < g.ny, g.y i < g.y (i + 1)
  z : ∀ i < g.nz, g.z i < g.z (i + 1)

/-- Bin width for edges `e`. -/
def width (e : ℕ → ℝ) (i : ℕ) : ℝ := e (i + 1) - e i
/-- Bin centre for edges `e`. -/
def centre (e : ℕ → ℝ) (i : ℕ) : ℝ := (e i + e (i + 1)) / 2

/-- A cell of the five dimensional grid. -/
structure Cell where
  t : ℕ
  v : ℕ
  x : ℕ
  y : ℕ
  z : ℕ

/-- Sum over all cells of the grid. -/
def Grid.sumCells (g : Grid) (f : Cell → ℝ) : ℝ :=
  ∑ t : Fin g.nt, ∑ v : Fin g.nv, ∑ x : Fin g.nx, ∑ y : Fin g.ny, ∑ z : Fin g.nz, f ⟨t, v, x, y, z⟩

/-- The cell lies in the grid. -/
def Grid.Has (g : Grid) (c : Cell) : Prop :=
  c.t < g.nt ∧ c.v < g.nv ∧ c.x < g.nx ∧ c.y < g.ny ∧ c.z < g.nz

/-- Volume of a five dimensional cell. -/
def Grid.cellVolume (g : Grid) (c : Cell) : ℝ :=
  width g.t c.t * width g.v c.v * width g.x c.x * width g.y c.y * width g.z c.z

/-- The 15 marginal distribution strings: alphabetical non-empty subsets of `t,v,x,z`. -/
def marginals : List PyStr :=
  [['t'], ['v'], ['x'], ['z'],
   ['t','v'], ['t','x'], ['t','z'], ['v','x'], ['v','z'], ['x','z'],
   ['t','v','x'], ['t','v','z'], ['t','x','z'], ['v','x','z'],
   ['t','v','x','z']]

/-- Pairs `(a, b)` such that `a_b` is a conditional distribution string: two marginal strings
without common variable (there are 50). -/
def conditionals : List (PyStr × PyStr) :=
  (marginals ×ˢ marginals).filter (fun p => ∀ c ∈ p.1, c ∉ p.2)

/-- The string `a_b`. -/
def condStr (a b : PyStr) : PyStr := a ++ '_' :: b

/-- Union of the variables of two strings, in alphabetical order. -/
def unionStr (a b : PyStr) : PyStr :=
  (['t','v','x','z'] : List Char).filter (fun c => c ∈ a ∨ c ∈ b)

/-- The grid coordinates of a cell that belong to one variable (`x` is two dimensional). -/
def coord1 (c : Cell) (ch : Char) : List ℕ :=
  if ch = 't' then [c.t] else if ch = 'v' then [c.v] else if ch = 'x' then [c.x, c.y]
  else if ch = 'z' then [c.z] else []

/-- Coordinates of a cell for the variables of `w`, in the order in which they are written:
the index of the cell in an array representing distribution `w`. -/
def coords (w : PyStr) (c : Cell) : List ℕ := w.flatMap (coord1 c)

/-- Number of bins along the axes belonging to a variable. -/
def Grid.shape1 (g : Grid) (ch : Char) : List ℕ :=
  if ch = 't' then [g.nt] else if ch = 'v' then [g.nv] else if ch = 'x' then [g.nx, g.ny]
  else if ch = 'z' then [g.nz] else []

/-- Shape of an array representing distribution `w`. -/
def Grid.shapeOf (g : Grid) (w : PyStr) : List ℕ := w.flatMap g.shape1

/-- Bin width of one variable at a cell (bin area for the 2D position `x`). -/
def Grid.width1 (g : Grid) (c : Cell) (ch : Char) : ℝ :=
  if ch = 't' then width g.t c.t else if ch = 'v' then width g.v c.v
  else if ch = 'x' then width g.x c.x * width g.y c.y
  else if ch = 'z' then width g.z c.z else 1

/-- Volume element of the variables `w` at a cell: product of the bin widths. -/
def Grid.volOf (g : Grid) (w : PyStr) (c : Cell) : ℝ := (w.map (g.width1 c)).prod

/-- Marginal probability: total of `P` over all cells that agree with cell `c` in the variables
of `w`. -/
def Grid.marg (g : Grid) (P : Cell → ℝ) (w : PyStr) (c : Cell) : ℝ :=
  g.sumCells (fun d => if coords w d = coords w c then P d else 0)

/-- Probability of `w` at `c` given the value of `b` at `c`. Undefined (nan) when the conditioning
event has probability zero. -/
def Grid.condP (g : Grid) (P : Cell → ℝ) (a b : PyStr) (c : Cell) : Num :=
  if g.marg P b c = 0 then .nan else .fin (g.marg P (unionStr a b) c / g.marg P b c)

/-- Light-weighted probability of cells: `L(t,z) P`, normalised. -/
def Grid.lightP (g : Grid) (L : ℕ → ℕ → ℝ) (P : Cell → ℝ) (c : Cell) : ℝ :=
  L c.t c.z * P c / g.sumCells (fun d => L d.t d.z * P d)

/-! ### Moments

The five scalar quantities of a cell are its age `t`, velocity `v`, positions `x`,`y` and metallicity
`z` (bin centres). The string `x` of the API stands for the pair of positions: results for it have
an extra first axis of length 2. -/

/-- Bin centre of the quantity `q` at a cell. -/
def Grid.value (g : Grid) (q : Char) (c : Cell) : ℝ :=
  if q = 't' then centre g.t c.t else if q = 'v' then centre g.v c.v
  else if q = 'x' then centre g.x c.x else if q = 'y' then centre g.y c.y else centre g.z c.z

/-- Bin edges of the quantity `q`. -/
def Grid.edge (g : Grid) (q : Char) : ℕ → ℝ :=
  if q = 't' then g.t else if q = 'v' then g.v else if q = 'x' then g.x else if q = 'y' then g.y
  else g.z

/-- Number of bins of the quantity `q`. -/
def Grid.bins (g : Grid) (q : Char) : ℕ :=
  if q = 't' then g.nt else if q = 'v' then g.nv else if q = 'x' then g.nx else if q = 'y' then g.ny
  else g.nz

/-- The real number in a float64; 0 for nan and infinities (used where these are multiplied by zero
or excluded). -/
def Num.toReal : Num → ℝ
  | .fin r => r
  | _ => 0

/-- API variable that a quantity belongs to. -/
def varOf (q : Char) : PyStr := if q = 'y' then ['x'] else [q]

/-- Extra leading index of a quantity in a result array: 0 and 1 for the two positions. -/
def compIdx (q : Char) : List ℕ := if q = 'x' then [0] else if q = 'y' then [1] else []

/-- Extra leading axis of results for a variable. -/
def compShape (a : PyStr) : List ℕ := if a = ['x'] then [2] else []

/-- `a` if there are no conditioners, else `a_b`. -/
def distStr (a b : PyStr) : PyStr := if b = [] then a else condStr a b

/-- The distributions of the variables `a` given `b` (`b` may be empty). -/
def ValidPair (a b : PyStr) : Prop := (b = [] ∧ a ∈ marginals) ∨ (a, b) ∈ conditionals

instance {a b : PyStr} : Decidable (ValidPair a b) := by unfold ValidPair; infer_instance

/-- Weight by which sums over `P` given `b` are divided: the probability of the conditioning event;
for a marginal there is no division. -/
def Grid.condWt (g : Grid) (P : Cell → ℝ) (b : PyStr) (c : Cell) : ℝ :=
  if b = [] then 1 else g.marg P b c

/-- Expectation of `φ` under `P` given the value of `b` at `c`; undefined (nan) where the conditioning
event has probability zero. -/
def Grid.expect (g : Grid) (P φ : Cell → ℝ) (b : PyStr) (c : Cell) : Num :=
  if g.condWt P b c = 0 then .nan else .fin (g.marg (fun d => φ d * P d) b c / g.condWt P b c)

/-- Real value of the mean of `q` given `b` at `c` (where it is defined). -/
def Grid.mean (g : Grid) (P : Cell → ℝ) (q : Char) (b : PyStr) (c : Cell) : ℝ :=
  g.marg (fun d => g.value q d * P d) b c / g.condWt P b c

/-! ### L-moments -/

/-- Bin number of a cell along the quantity `q`. -/
def binIdx (q : Char) (c : Cell) : ℕ :=
  if q = 't' then c.t else if q = 'v' then c.v else if q = 'x' then c.x else if q = 'y' then c.y else c.z

/-- Probability that `q` lies in its bin `k`, given `b` at `c`. -/
def Grid.binProb (g : Grid) (P : Cell → ℝ) (q : Char) (b : PyStr) (c : Cell) (k : ℕ) : ℝ :=
  g.marg (fun d => if binIdx q d = k then P d else 0) b c / g.condWt P b c

/-- Cumulative distribution at the bin edges for bin probabilities `p`. -/
def cdf (p : ℕ → ℝ) (i : ℕ) : ℝ := ∑ k ∈ Finset.range i, p k

/-- Legendre polynomials. -/
def legendreP : ℕ → ℝ → ℝ
  | 0, _ => 1
  | 1, x => x
  | n + 2, x => ((2 * n + 3) * x * legendreP (n + 1) x - (n + 1) * legendreP n x) / (n + 2)

/-- Hosking's L-moment `∫ x(F) P_{j-1}(2F-1) dF` of order `j` by the trapezoid rule, for `n` bins with
edges `e` and probabilities `p`. -/
def lmoment (n : ℕ) (e p : ℕ → ℝ) (j : ℕ) : ℝ :=
  ∑ i ∈ Finset.range n, (e i * legendreP (j - 1) (2 * cdf p i - 1) +
    e (i + 1) * legendreP (j - 1) (2 * cdf p (i + 1) - 1)) / 2 * p i

end PKM
