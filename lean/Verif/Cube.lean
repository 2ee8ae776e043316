import Verif.Np
import Verif.PyStr

/-!
# Model of `ifu_cube.IFUCube` (probability-related part) and of the attributes of
`model_grids.milesSSPs` that it reads.
-/

open scoped Classical

noncomputable section

namespace PKM
open Np

/-- Attributes of a `milesSSPs` object read by cubes and components
(model_grids.py:98-140, 142-183, 283-293). `par_edges = [z, t]`, `par_cents = [z, t]`. -/
structure SSPs where
  zEdges : Arr Num
  tEdges : Arr Num
  zCents : Arr Num
  tCents : Arr Num
  deltaT : Arr Num
  deltaZ : Arr Num
  lightWeights : Arr Num

/-- Attributes of an `IFUCube` (ifu_cube.py:20-50). -/
structure IFUCube where
  ssps : SSPs
  nx : ℕ
  ny : ℕ
  x1rng : ℝ × ℝ
  x2rng : ℝ × ℝ
  dx : Num
  dy : Num
  x : Arr Num
  y : Arr Num
  nv : ℕ
  vEdg : Arr Num

/-- `np.linspace(a, b, num)` (ifu_cube.py:36,39,46). The last entry is `b` exactly in real
arithmetic; a negative `num` raises `ValueError`. -/
def linspace (a b : ℝ) (num : ℤ) : Py (Arr Num) :=
  if num < 0 then .error .valueError
  else .ok (vec num.toNat (fun i => .fin (a + i * ((b - a) / (num.toNat - 1 : ℝ)))))

/-- `IFUCube.__init__` (ifu_cube.py:20-50), without the spectral resampling of lines 48-50
(modelled in `Verif/Ybar.lean`). `ssps` must not be `None`. Attributes `xx`,`yy` (line 42-44) are
recomputed by their readers. -/
def IFUCube.init (ssps : SSPs) (nx1 nx2 nv : ℤ) (x1rng x2rng vrng : ℝ × ℝ) : Py IFUCube := do
  let x_edge ← linspace x1rng.1 x1rng.2 (nx1 + 1)
  let a ← getitem [.at 1] x_edge
  let b ← getitem [.at 0] x_edge
  let dx ← sub a b
  let h ← getitem [.sl 0 (some (-1))] x_edge
  let x ← add h (map (fun d => d / .fin 2) dx)
  let y_edge ← linspace x2rng.1 x2rng.2 (nx2 + 1)
  let a ← getitem [.at 1] y_edge
  let b ← getitem [.at 0] y_edge
  let dy ← sub a b
  let h ← getitem [.sl 0 (some (-1))] y_edge
  let y ← add h (map (fun d => d / .fin 2) dy)
  let v_edg ← linspace vrng.1 vrng.2 (nv + 1)
  let a ← getitem [.at 1] v_edg
  let b ← getitem [.at 0] v_edg
  let _dv ← sub a b
  .ok { ssps := ssps, nx := nx1.toNat, ny := nx2.toNat, x1rng := x1rng, x2rng := x2rng,
        dx := dx.get [], dy := dy.get [], x := x, y := y, nv := nv.toNat, vEdg := v_edg }

namespace IFUCube

/-- The bin widths `da` selected by the if-chain of `construct_volume_element`
(ifu_cube.py:76-85). A character that is none of `t v x y z` keeps the previous value of `da`
(no `else` branch); if there is none, using `da` raises `UnboundLocalError`. -/
def volDa (c : IFUCube) (var : Char) (prev : Option (Arr Num)) : Py (Arr Num) :=
  if var = 't' then .ok c.ssps.deltaT
  else if var = 'v' then do
    let hi ← getitem [.sl 1 none] c.vEdg
    let lo ← getitem [.sl 0 (some (-1))] c.vEdg
    sub hi lo
  else if var = 'x' then .ok (full [1] c.dx)
  else if var = 'y' then .ok (full [1] c.dy)
  else if var = 'z' then .ok c.ssps.deltaZ
  else match prev with
    | some d => .ok d
    | none => .error .unboundLocalError

/-- The loop of `construct_volume_element` (ifu_cube.py:75-90). `count` axes have been done. -/
def volLoop (c : IFUCube) (ndim : ℕ) :
    ℕ → List Char → Option (Arr Num) → Arr Num → Py (Arr Num)
  | _, [], _, dvol => .ok dvol
  | count, var :: rest, prev, dvol => do
    let da ← volDa c var prev
    let d ← getitem (List.replicate count .na ++ [.all] ++ List.replicate (ndim - count - 1) .na) da
    let dvol ← mul dvol d
    volLoop c ndim (count + 1) rest (some da) dvol

/-- `construct_volume_element` (ifu_cube.py:52-95). -/
def constructVolumeElement (c : IFUCube) (w : PyStr) : Py (Arr Num) :=
  if '_' ∈ w then
    match PyStr.split '_' w with
    | [dist, marg] => do
      let marg := PyStr.replaceX marg
      let dist := PyStr.replaceX dist
      let dvol ← volLoop c dist.length 0 dist none (full (List.replicate dist.length 1) (.fin 1))
      getitem (List.replicate dvol.shape.length .all ++ List.replicate marg.length .na) dvol
    | _ => .error .valueError
  else do
    let dist := PyStr.replaceX w
    let dvol ← volLoop c dist.length 0 dist none (full (List.replicate dist.length 1) (.fin 1))
    getitem (List.replicate dvol.shape.length .all) dvol

/-- `get_variable_values` (ifu_cube.py:97-120). -/
def getVariableValues (c : IFUCube) (w : PyStr) : Py (Arr Num) :=
  if w = ['t'] then .ok c.ssps.tCents
  else if w = ['v'] then do
    let lo ← getitem [.sl 0 (some (-1))] c.vEdg
    let hi ← getitem [.sl 1 none] c.vEdg
    let s ← add lo hi
    .ok (map (fun d => d / .fin 2) s)
  else if w = ['z'] then .ok c.ssps.zCents
  else if w = ['x','1'] then .ok c.x
  else if w = ['x','2'] then .ok c.y
  else .error .valueError

/-- Spatial edges `np.concatenate([x - dx/2, [x[-1] + dx/2]])` (ifu_cube.py:139,141). -/
def spatialEdges (x : Arr Num) (dx : Num) : Py (Arr Num) := do
  let lo ← sub x (scalar (dx / .fin 2))
  let last ← getitem [.at (-1)] x
  let hi ← add last (scalar (dx / .fin 2))
  let hi ← stack [hi]
  concat0 lo hi

/-- `get_variable_edges` (ifu_cube.py:122-144). -/
def getVariableEdges (c : IFUCube) (w : PyStr) : Py (Arr Num) :=
  if w = ['t'] then .ok c.ssps.tEdges
  else if w = ['v'] then .ok c.vEdg
  else if w = ['z'] then .ok c.ssps.zEdges
  else if w = ['x','1'] then spatialEdges c.x c.dx
  else if w = ['x','2'] then spatialEdges c.y c.dy
  else .error .valueError

/-- `len(a)` of an array (`TypeError` for a 0-d array). -/
def pyLen (a : Arr Num) : Py ℕ :=
  match a.shape with
  | n :: _ => .ok n
  | [] => .error .typeError

/-- `get_variable_size` (ifu_cube.py:146-157). -/
def getVariableSize (c : IFUCube) (w : PyStr) : Py ℕ := do
  let a ← getVariableValues c w
  pyLen a

/-- The loop of `get_distribution_shape` (ifu_cube.py:171-177). -/
def shapeLoop (c : IFUCube) : List Char → Py (List ℕ)
  | [] => .ok []
  | var :: rest => do
    let d ← if var = 'x' then do
        let n1 ← getVariableSize c ['x','1']
        let n2 ← getVariableSize c ['x','2']
        .ok [n1, n2]
      else do
        let n ← getVariableSize c [var]
        .ok [n]
    let r ← shapeLoop c rest
    .ok (d ++ r)

/-- `get_distribution_shape` (ifu_cube.py:159-179). -/
def getDistributionShape (c : IFUCube) (w : PyStr) : Py (List ℕ) :=
  shapeLoop c (PyStr.dropUnderscore w)

/-- `get_variable_extent` (ifu_cube.py:234-258). -/
def getVariableExtent (c : IFUCube) (w : PyStr) : Py (Num × Num) :=
  let ends (e : Arr Num) : Py (Num × Num) := do
    let a ← getitem [.at 0] e
    let b ← getitem [.at (-1)] e
    .ok (a.get [], b.get [])
  if w = ['x','1'] then .ok (.fin c.x1rng.1, .fin c.x1rng.2)
  else if w = ['x','2'] then .ok (.fin c.x2rng.1, .fin c.x2rng.2)
  else if w = ['t'] then ends c.ssps.tEdges
  else if w = ['z'] then ends c.ssps.zEdges
  else if w = ['v'] then ends c.vEdg
  else .error .valueError

end IFUCube
end PKM
