import Verif.Ssp

/-!
# Model of `model_grids.modelGrid`, the base class of SSP grids with any number of parameters

A subclass may define a function `par_mask_function` that says which points of the parameter space to leave out; `milesSSPs` sets it to
`None` (`Verif/Ssp.lean`).
-/

open scoped Classical

noncomputable section

namespace PKM
open Np

namespace Np

/-- `np.meshgrid(*vs, indexing="ij")` of one-dimensional arrays. -/
def meshgrid {α : Type} (vs : List (Arr α)) : List (Arr α) :=
  vs.zipIdx.map (fun v => ⟨vs.map (fun u => u.shape.headD 0), fun i => v.1.get [i.getD v.2 0]⟩)

/-- `a.reshape(d, -1)`. -/
def reshapeRows {α : Type} (d : ℕ) (a : Arr α) : Py (Arr α) :=
  if d = 0 then .error .valueError else reshape [d, a.shape.prod / d] a

/-- `a[:, keep]` for a boolean array `keep`, two-dimensional `a`; the lengths have to agree. -/
def maskCols {α : Type} (keep : Arr Bool) (a : Arr α) : Py (Arr α) :=
  if keep.shape = [a.shape.getD 1 0] then
    let ks := (List.range (a.shape.getD 1 0)).filter (fun k => keep.get [k])
    .ok ⟨[a.shape.getD 0 0, ks.length], fun i => a.get [i.getD 0 0, ks.getD (i.getD 1 0) 0]⟩
  else .error .indexError

end Np

/-- A `par_mask_function`: maps an array whose first axis runs over the parameters to an array of truth values of at least one dimension. -/
abbrev MaskFn := Arr Num → Py (Arr Bool)

/-- What `_get_par_grid` sets (model_grids.py:58-60, 74-79). -/
structure ParGrid where
  edges : List (Arr Num)
  widths : List (Arr Num)
  cents : List (Arr Num)
  maskNd : Arr Bool
  idx : Arr ℕ
  pars : Arr Num

/-- The masks over the grid and over the list of its points (model_grids.py:68-73). -/
def gridMasks (dims : List ℕ) (mask : Option MaskFn) (nd pars : Arr Num) : Py (Arr Bool × Arr Bool) := match mask with
  | some f => do
    let a ← f nd
    let b ← f pars
    .ok (a, b)
  | none => .ok (full dims false, full [dims.prod] false)

/-- `_get_par_grid(par_edges)` (model_grids.py:41-79) for given edges. -/
def parGrid (npars : ℕ) (dims : List ℕ) (mask : Option MaskFn) (edges : List (Arr Num)) : Py ParGrid := do
  let widths ← edges.mapM edgeWidths
  let cents ← edges.mapM edgeCents
  let idxs : List (Arr ℕ) := edges.map (fun e => vec (e.shape.headD 0 - 1) (fun i => i))
  let nd ← stack (meshgrid cents)
  let pars ← reshapeRows npars nd
  let idx ← stack (meshgrid idxs)
  let idx ← reshapeRows npars idx
  let (maskNd, mask1) ← gridMasks dims mask nd pars
  let unmasked := map (fun b => !b) mask1
  let pars ← maskCols unmasked pars
  let idx ← maskCols unmasked idx
  .ok ⟨edges, widths, cents, maskNd, idx, pars⟩

/-- Edges from the limits (model_grids.py:46-51). -/
def evenParEdges : List ℕ → List (List ℝ) → Py (List (Arr Num))
  | n :: ns, [lo, hi] :: ls => do
    let e ← linspace lo hi ((n : ℤ) + 1)
    let r ← evenParEdges ns ls
    .ok (e :: r)
  | _ :: _, _ :: _ => .error .valueError
  | _, _ => .ok []

/-- Arguments of `modelGrid.__init__` (model_grids.py:9); `mask` is the attribute `par_mask_function`, if a subclass defines it. `par_lims`
is a sequence of sequences of numbers. -/
structure GridArgs where
  n : ℤ
  lmdMin : ℝ
  lmdMax : ℝ
  npars : ℕ
  parDims : List ℕ
  parLims : List (List ℝ)
  X : Arr Num
  mask : Option (Option MaskFn)

/-- `_check_par_input` (model_grids.py:26-39); returns the attribute `par_mask_function`. `np.array` of rows of different lengths
raises `ValueError`, and so does the comparison of shapes; the shape of an empty sequence is `(0,)`. -/
def checkParInput (a : GridArgs) : Py (Option MaskFn) :=
  if a.parDims.length ≠ a.npars then .error .valueError
  else if ¬ (a.parLims ≠ [] ∧ a.parLims.length = a.npars ∧ ∀ r ∈ a.parLims, r.length = 2) then .error .valueError
  else if 100000 < a.parDims.prod then .error .valueError
  else match a.mask with
    | none => .error .attributeError
    | some none => .ok none
    | some (some f) => do
      let _ ← f (full [a.npars, 3] (.fin 0))
      .ok (some f)

/-- A `modelGrid` object. -/
structure GridObj where
  n : ℤ
  lmd : Arr Num
  deltaLmd : ℝ
  grid : ParGrid
  p : ℕ
  minNP : ℤ
  X : Arr Num

/-- `modelGrid.__init__` (model_grids.py:9-24). Wavelength limits are Python numbers, so that division by `n = 0` raises. -/
def GridObj.init (a : GridArgs) : Py GridObj := do
  let lmd ← linspace a.lmdMin a.lmdMax a.n
  if a.n = 0 then .error .zeroDivisionError
  else do
    let mask ← checkParInput a
    let edges ← evenParEdges a.parDims a.parLims
    let g ← parGrid a.npars a.parDims mask edges
    let p := g.pars.shape.getLastD 0
    .ok { n := a.n, lmd := lmd, deltaLmd := (a.lmdMax - a.lmdMin) / a.n, grid := g, p := p, minNP := min a.n p, X := a.X }

/-- The call `read_miles.milesSSPs(mod_dir=None)` (read_miles.py:17-19, 44-48): `list_mod_directories` reads `self.data_dir`, an attribute
that is set after this branch. -/
def listModDirectories (dataDir : Option (List PyStr)) : Py (List PyStr) :=
  match dataDir with
  | none => .error .attributeError
  | some d => .ok ((d.zipIdx).map (fun e => (toString (e.2 + 1)).toList ++ ") ".toList ++ e.1))

/-- Beginning of `read_miles.milesSSPs.__init__` (read_miles.py:17-27): the lines printed for `mod_dir=None`, or the directory with a
trailing slash. -/
def modDir (m : Option PyStr) : Py (List PyStr ⊕ PyStr) :=
  match m with
  | none => do
    let l ← listModDirectories none
    .ok (.inl l)
  | some s => match s.getLast? with
    | none => .error .indexError
    | some c => .ok (.inr (if c ≠ '/' then s ++ ['/'] else s))

end PKM
