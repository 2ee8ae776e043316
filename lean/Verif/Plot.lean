import Verif.Ssp
import Verif.Parametric
import Verif.Shared

/-!
# Model of the plotting functions of cubes

`IFUCube.imshow`, `plot`, `plot_spectrum` and what they use (ifu_cube.py:181-397), and `milesSSPs.set_tick_positions`
(model_grids.py:197-238).

External functions: matplotlib is modelled by what is handed to it. `ax.imshow(img, extent=e)` shows a two dimensional array, first row
on top (`origin` "upper" is matplotlib's default), over the rectangle given by the first four entries of `e`.
-/

open scoped Classical

noncomputable section

namespace PKM
open Np Component

/-- A Python tuple, or a reference to a list object. -/
inductive PySeq
  | tup (l : List Num)
  | lst (addr : ℕ)

/-- Contents of the list objects. -/
abbrev Lists := ℕ → List Num

/-- Items of a tuple or list. -/
def PySeq.items (m : Lists) : PySeq → List Num
  | .tup l => l
  | .lst i => m i

/-- `a += b` (ifu_cube.py:309): a tuple is joined with another tuple to a new tuple (`TypeError` for a list), a list is extended in
place. -/
def PySeq.iadd (a b : PySeq) (m : Lists) : Py PySeq × Lists :=
  match a with
  | .tup x =>
    match b with
    | .tup y => (.ok (.tup (x ++ y)), m)
    | .lst _ => (.error .typeError, m)
  | .lst i => (.ok (.lst i), Function.update m i (m i ++ b.items m))

/-- Attributes set by `set_tick_positions` (model_grids.py:232-238). -/
structure Ticks where
  t : List ℝ
  z : List ℝ
  imgT : List ℝ
  imgZ : List ℝ

/-- Attributes of a cube used for plotting: `x1rng` and `x2rng` are the objects given to the constructor (ifu_cube.py:32-33); ticks, wavelengths
`lmd` and log-wavelengths `w` are attributes of its SSPs. -/
structure PlotCube where
  cube : IFUCube
  rng1 : PySeq
  rng2 : PySeq
  ticks : Ticks
  lmd : List ℝ
  w : List ℝ

/-- `set_tick_positions` for one variable (model_grids.py:218-238): labels strictly between the outermost edges, and their positions on an
axis on which the `n` bins are equally wide and fill the unit interval. `dflt` is used if no ticks are given and none were set before. -/
def tickPositions (dflt : List ℝ) (old new : Option (List ℝ)) (edges : Arr Num) (n : ℕ) : Py (List ℝ × List ℝ) := do
  let ticks := new.getD (old.getD dflt)
  let lo ← getitem [.at 0] edges
  let hi ← getitem [.at (-1)] edges
  let ticks := ticks.filter (fun x => decide (Num.lt (lo.get []) (.fin x) ∧ Num.lt (.fin x) (hi.get [])))
  let tmp (i : ℕ) : ℝ := i / n
  .ok (ticks, ticks.map (Param.interp (edges.shape.headD 0) (fun i => finPart (edges.get [i])) tmp))

/-- `set_tick_positions` (model_grids.py:197-238). -/
def setTickPositions (g : SspGrid) (old : Option Ticks) (t z : Option (List ℝ)) : Py Ticks := do
  let (tt, ti) ← tickPositions [1 / 10, 1, 5, 13] (old.map Ticks.t) t g.tEdges (g.parDims.getD 1 0)
  let (zt, zi) ← tickPositions [-2, -1, 0] (old.map Ticks.z) z g.zEdges (g.parDims.getD 0 0)
  .ok ⟨tt, zt, ti, zi⟩

/-- Ticks of a new SSP object: `__init__` calls `set_tick_positions` before `_rebin_par_grid` (model_grids.py:135, 140), which does not
change them. -/
def sspTicks (d : MilesData) (ageRebin zRebin : ℕ) : Py (SspGrid × Ticks) := do
  let g ← SspGrid.init0 d
  let ticks ← setTickPositions g none none none
  let g ← g.rebin ageRebin zRebin
  .ok (g, ticks)

namespace PlotCube

/-- `get_axis_label` (ifu_cube.py:181-203). -/
def getAxisLabel (w : PyStr) : Py PyStr :=
  if w = "x1".toList then .ok "$x_1$".toList
  else if w = "x2".toList then .ok "$x_2$".toList
  else if w = "t".toList then .ok "$t$ [Gyr]".toList
  else if w = "z".toList then .ok "$z$ [M/H]".toList
  else if w = "v".toList then .ok "$v$ [km/s]".toList
  else .error .valueError

/-- `_get_ticks` (ifu_cube.py:205-233): positions and labels; `none` is the string `default`. -/
def getTicks (p : PlotCube) (w : PyStr) : Py (Option (List ℝ × List ℝ)) :=
  if w = "x1".toList then .ok none
  else if w = "x2".toList then .ok none
  else if w = "t".toList then .ok (some (p.ticks.imgT, p.ticks.t))
  else if w = "z".toList then .ok (some (p.ticks.imgZ, p.ticks.z))
  else if w = "v".toList then .ok none
  else .error .valueError

/-- `(edges[0], edges[-1])` (ifu_cube.py:251, 254, 256). -/
def ends (e : Arr Num) : Py PySeq := do
  let a ← getitem [.at 0] e
  let b ← getitem [.at (-1)] e
  .ok (.tup [a.get [], b.get []])

/-- `get_variable_extent` (ifu_cube.py:235-259): for positions the object stored by the constructor itself. -/
def extentObj (p : PlotCube) (w : PyStr) : Py PySeq :=
  if w = "x1".toList then .ok p.rng1
  else if w = "x2".toList then .ok p.rng2
  else if w = "t".toList then ends p.cube.ssps.tEdges
  else if w = "z".toList then ends p.cube.ssps.zEdges
  else if w = "v".toList then ends p.cube.vEdg
  else .error .valueError

/-- `_get_image_extent` (ifu_cube.py:261-277). -/
def imageExtent (p : PlotCube) (w : PyStr) : Py PySeq :=
  if w = "x1".toList ∨ w = "x2".toList ∨ w = "v".toList then p.extentObj w
  else if w = "t".toList ∨ w = "z".toList then .ok (.tup [.fin 0, .fin 1])
  else .error .valueError

/-- `np.flipud(img.T)` (ifu_cube.py:307). -/
def flipudT (img : Arr Num) : Py (Arr Num) :=
  match img.shape with
  | [n, m] => .ok ⟨[m, n], fun i => img.get [i.getD 1 0, m - 1 - i.getD 0 0]⟩
  | _ => .error .typeError

/-- What is drawn by `imshow`: the image (first row on top), its rectangle, ticks and labels of the two axes (`some none` are the
ticks chosen by matplotlib, `none` is no ticks). -/
structure Drawing where
  image : Arr Num
  left : Num
  right : Num
  bottom : Num
  top : Num
  ticks : Option (List (Option (List ℝ × List ℝ)))
  labels : List PyStr

/-- `ax.imshow(img, extent=extent)` (ifu_cube.py:310), the first four entries of `extent` are used; `IndexError` if there are fewer. -/
def axImshow (img : Arr Num) (e : List Num) : Py Drawing :=
  match e with
  | l :: r :: b :: t :: _ => .ok ⟨img, l, r, b, t, none, []⟩
  | _ => .error .indexError

/-- Ticks and label of axis `w` (ifu_cube.py:319-326). -/
def decorate (p : PlotCube) (d : Drawing) (w : PyStr) : Py Drawing := do
  let t ← p.getTicks w
  let l ← getAxisLabel w
  .ok { d with ticks := some (d.ticks.getD [] ++ [t]), labels := d.labels ++ [l] }

/-- Steps of `imshow` after the extents have been joined (ifu_cube.py:310-327), without colour bar. -/
def finish (p : PlotCube) (img : Arr Num) (e : List Num) (v0 v1 : PyStr) (labelAx : Bool) : Py Drawing := do
  let d ← axImshow img e
  if labelAx then do
    let d ← p.decorate d v0
    p.decorate d v1
  else .ok d

/-- `imshow` (ifu_cube.py:279-327) of a two dimensional array; the second result is the contents of the lists afterwards. `view` is a
list of two strings (`IndexError` if shorter; further strings are ignored). `labelAx` is `label_ax is not False`. -/
def imshow (p : PlotCube) (img : Arr Num) (view : List PyStr) (labelAx : Bool) (m : Lists) : Py Drawing × Lists :=
  match flipudT img with
  | .error e => (.error e, m)
  | .ok img =>
    match view with
    | [] => (.error .indexError, m)
    | v0 :: rest =>
      match p.imageExtent v0 with
      | .error e => (.error e, m)
      | .ok a =>
        match rest with
        | [] => (.error .indexError, m)
        | v1 :: _ =>
          match p.imageExtent v1 with
          | .error e => (.error e, m)
          | .ok b =>
            match a.iadd b m with
            | (.error e, m) => (.error e, m)
            | (.ok e, m) => (p.finish img (e.items m) v0 v1 labelAx, m)

/-- What is drawn by `plot`: the curve and the ticks and label of the horizontal axis. -/
structure Curve where
  x : Arr Num
  y : Arr Num
  ticks : Option (List ℝ × List ℝ)
  label : PyStr

/-- `ax.plot(x, y)`: `ValueError` if the first dimensions differ. -/
def axPlot (x y : Arr Num) : Py Unit :=
  if x.shape.headD 1 = y.shape.headD 1 then .ok () else .error .valueError

/-- `plot` (ifu_cube.py:329-363). Any other `xspacing` leaves `x` unassigned. -/
def plot (p : PlotCube) (w : PyStr) (arr : Arr Num) (xspacing : PyStr) : Py Curve := do
  if xspacing = "physical".toList then do
    let x ← p.cube.getVariableValues w
    axPlot x arr
    let l ← getAxisLabel w
    .ok ⟨x, arr, none, l⟩
  else if xspacing = "discrete".toList then do
    let x ← linspace 0 1 arr.shape.prod
    let _ ← p.extentObj w
    let t ← p.getTicks w
    axPlot x arr
    let l ← getAxisLabel w
    .ok ⟨x, arr, t, l⟩
  else .error .unboundLocalError

/-- `plot_spectrum` (ifu_cube.py:365-397): the wavelengths against which the array is drawn. An array of any other length leaves
`wavelength` unassigned (after a message has been printed). -/
def plotSpectrum (p : PlotCube) (arr : Arr Num) : Py Curve :=
  match arr.shape with
  | [] => .error .indexError
  | n :: _ =>
    if n = p.lmd.length then .ok ⟨vecOf p.lmd, arr, none, "Wavelength [$\\AA$]".toList⟩
    else if n = p.w.length then .ok ⟨vecOf (p.w.map Real.exp), arr, none, "Wavelength [$\\AA$]".toList⟩
    else .error .unboundLocalError

end PlotCube
end PKM
