import Verif.Ybar
import Verif.Disk
import Verif.Particle

/-!
# Model of `model_grids.milesSSPs`: the grid of SSP parameters

Bin edges, rebinning, light weights and single spectra. Reading the files is modelled in `Verif/Miles.lean`, the logarithmic
resampling and Fourier transform in `Verif/Ybar.lean`.
-/

open scoped Classical

noncomputable section

namespace PKM
open Np

namespace Np

/-- `a[::r]` for `r >= 0` (a zero step raises `ValueError`; negative steps are not modelled). -/
def stride {α : Type} (r : ℕ) (a : Arr α) : Py (Arr α) :=
  if r = 0 then .error .valueError
  else match a.shape with
    | n :: s => .ok ⟨((n + r - 1) / r) :: s, fun i => a.get (i.headD 0 * r :: i.tail)⟩
    | [] => .error .indexError

/-- `np.allclose(a, b)` for one-dimensional arrays of equal length. -/
def allclose (a b : Arr Num) : Prop := ∀ i < a.shape.headD 0, isclose (a.get [i]) (b.get [i])

/-- `a[0] = x` for a one-dimensional array. -/
def setFirst (x : Num) (a : Arr Num) : Arr Num := ⟨a.shape, fun i => if i = [0] then x else a.get i⟩

end Np

/-- A float64 array with the given numbers. -/
def vecOf (l : List ℝ) : Arr Num := vec l.length (fun i => .fin (l.getD i 0))

/-- `milesSSPs._get_par_edge_lims` (model_grids.py:185-195). The literal `0.011` is taken exactly. -/
def parEdgeLims (x_cnt : Arr Num) : Py (Arr Num) := do
  let hi ← getitem [.sl 1 none] x_cnt
  let lo ← getitem [.sl 0 (some (-1))] x_cnt
  let dx ← sub hi lo
  let x_edg_lo ← sub hi (map (fun d => d / .fin 2) dx)
  let x_edg_hi ← add lo (map (fun d => d / .fin 2) dx)
  let x0 ← getitem [.at 0] x_cnt
  let d0 ← getitem [.at 0] dx
  let first ← sub x0 (map (fun d => d / .fin 2) d0)
  let first ← stack [first]
  let x_edg_lo ← concat0 first x_edg_lo
  let xl ← getitem [.at (-1)] x_cnt
  let dl ← getitem [.at (-1)] dx
  let last ← add xl (map (fun d => d / .fin 2) dl)
  let last ← stack [last]
  let x_edg_hi ← concat0 x_edg_hi last
  let a ← getitem [.sl 1 none] x_edg_lo
  let b ← getitem [.sl 0 (some (-1))] x_edg_hi
  if allclose a b then
    let e0 ← getitem [.at 0] x_edg_lo
    let x_edg_lo := if Num.lt (Num.abs (e0.get [])) (.fin (11 / 1000)) then setFirst (.fin 0) x_edg_lo else x_edg_lo
    let e ← getitem [.at (-1)] x_edg_hi
    let e ← stack [e]
    concat0 x_edg_lo e
  else .error .assertionError

/-- Attributes of a `milesSSPs` object (model_grids.py:98-140) that describe the parameter grid. `par_cents = [z, t]`,
`par_edges = [z, t]`; `xw` is set by `_logarithmically_resample`. -/
structure SspGrid where
  lmd : List ℝ
  zEdges : Arr Num
  tEdges : Arr Num
  zCents : Arr Num
  tCents : Arr Num
  deltaZ : Arr Num
  deltaT : Arr Num
  parDims : List ℕ
  X : Arr Num
  parIdx : Arr ℕ
  xw : Option (Arr Num)

/-- `(edges[0:-1] + edges[1:]) / 2.` (model_grids.py:54, 146, 151). -/
def edgeCents (e : Arr Num) : Py (Arr Num) := do
  let lo ← getitem [.sl 0 (some (-1))] e
  let hi ← getitem [.sl 1 none] e
  let s ← add lo hi
  .ok (map (fun d => d / .fin 2) s)

/-- `edges[1:] - edges[:-1]` (model_grids.py:53, 137, 139, 147, 152). -/
def edgeWidths (e : Arr Num) : Py (Arr Num) := do
  let hi ← getitem [.sl 1 none] e
  let lo ← getitem [.sl 0 (some (-1))] e
  sub hi lo

/-- Index pairs of the flattened grid (model_grids.py:55-56, 63-65, 76): `par_idx[0]` is the metallicity index and `par_idx[1]` the
age index of each column. There is no mask (`par_mask_function = None`), so that line 76 keeps every column. -/
def parIdxOf (nz nt : ℕ) : Py (Arr ℕ) := do
  let I : Arr ℕ := ⟨[nz, nt], fun i => i.getD 0 0⟩
  let J : Arr ℕ := ⟨[nz, nt], fun i => i.getD 1 0⟩
  let a ← stack [I, J]
  reshape [2, nz * nt] a

/-- New edges of one axis in `_rebin_par_grid` (model_grids.py:143-145, 148-150). -/
def rebinEdges (e : Arr Num) (r : ℕ) : Py (Arr Num) := do
  let s ← stride r e
  let a ← getitem [.at (-1)] s
  let b ← getitem [.at (-1)] e
  if Num.eqv (a.get []) (b.get []) then .ok s
  else do
    let l ← stack [b]
    concat0 s l

/-- `slice(i*r, None if new_edges[i+1] == edges[-1] else (i+1)*r)` (model_grids.py:163-168, 169-174). -/
def rebinSlice (e new : Arr Num) (r i : ℕ) : Py Ix := do
  let a ← getitem [.at ((i + 1 : ℕ) : ℤ)] new
  let b ← getitem [.at (-1)] e
  if Num.eqv (a.get []) (b.get []) then .ok (.sl ((i * r : ℕ) : ℤ) none)
  else .ok (.sl ((i * r : ℕ) : ℤ) (some (((i + 1) * r : ℕ) : ℤ)))

/-- The value assigned to `new_X[:, i, j]` (model_grids.py:163-176). -/
def rebinCell (g : SspGrid) (newZ newT Xd dzdt : Arr Num) (zr tr i j : ℕ) : Py (Arr Num) := do
  let zs ← rebinSlice g.zEdges newZ zr i
  let ts ← rebinSlice g.tEdges newT tr j
  let A ← getitem [.all, zs, ts] Xd
  let s ← Np.sum [1, 2] A
  let D ← getitem [zs, ts] dzdt
  div s (sumAll D)

/-- `new_X` (model_grids.py:156-177). -/
def rebinX (g : SspGrid) (newZ newT : Arr Num) (nz' nt' zr tr : ℕ) : Py (Arr Num) := do
  let X ← reshapeInfer g.parDims g.X
  let n := X.shape.headD 0
  let dz ← getitem [.all, .na] g.deltaZ
  let dt ← getitem [.na, .all] g.deltaT
  let dzdt ← mul dz dt
  let Xd ← mul X dzdt
  let newX ← (List.range nz').foldlM (fun y (i : ℕ) =>
    (List.range nt').foldlM (fun y (j : ℕ) => do
      let q ← rebinCell g newZ newT Xd dzdt zr tr i j
      Component.setSpaxel y i j q) y) (full [n, nz', nt'] (.fin 0))
  if n = 0 then .error .valueError else reshape [n, nz' * nt'] newX

/-- `milesSSPs._rebin_par_grid` (model_grids.py:142-183). `par_idx`, `pars`, `p` and the tick positions keep their old values. -/
def SspGrid.rebin (g : SspGrid) (ageRebin zRebin : ℕ) : Py SspGrid := do
  let zE ← rebinEdges g.zEdges zRebin
  let zC ← edgeCents zE
  let dz ← edgeWidths zE
  let tE ← rebinEdges g.tEdges ageRebin
  let tC ← edgeCents tE
  let dt ← edgeWidths tE
  let nz' := zC.shape.headD 0
  let nt' := tC.shape.headD 0
  let X ← rebinX g zE tE nz' nt' zRebin ageRebin
  .ok { g with deltaT := dt, deltaZ := dz, zCents := zC, tCents := tC, zEdges := zE, tEdges := tE, parDims := [nz', nt'], X := X }

/-- What `model_grids.milesSSPs` uses of the object made by `read_miles` (read_miles.py:8-42): sorted distinct ages and
metallicities, truncated wavelengths and spectra. -/
structure MilesData where
  tUnq : List ℝ
  zUnq : List ℝ
  lmd : List ℝ
  X : Arr Num

/-- `milesSSPs.__init__` (model_grids.py:109-140) before the call of `_rebin_par_grid`. `lmd[0]` raises `IndexError` without
wavelengths; `_check_par_input` limits the number of SSPs. -/
def SspGrid.init0 (d : MilesData) : Py SspGrid := do
  if d.lmd = [] then .error .indexError
  else do
    let t_edg ← parEdgeLims (vecOf d.tUnq)
    let z_edg ← parEdgeLims (vecOf d.zUnq)
    let nz := d.zUnq.length
    let nt := d.tUnq.length
    if 100000 < nz * nt then .error .valueError
    else do
      let dz ← edgeWidths z_edg
      let zc ← edgeCents z_edg
      let dt ← edgeWidths t_edg
      let tc ← edgeCents t_edg
      let idx ← parIdxOf nz nt
      .ok { lmd := d.lmd, zEdges := z_edg, tEdges := t_edg, zCents := zc, tCents := tc, deltaZ := dz, deltaT := dt,
            parDims := [nz, nt], X := d.X, parIdx := idx, xw := none }

/-- `milesSSPs.__init__` (model_grids.py:98-140) after reading the files. -/
def SspGrid.init (d : MilesData) (ageRebin zRebin : ℕ) : Py SspGrid := do
  let g ← SspGrid.init0 d
  g.rebin ageRebin zRebin

/-- `milesSSPs.get_light_weights` (model_grids.py:283-293). -/
def SspGrid.lightWeights (g : SspGrid) : Py (Arr Num) := do
  let lw ← Np.sum [0] g.X
  let lw ← reshape g.parDims lw
  .ok (T lw)

/-- `milesSSPs.get_ssp` (model_grids.py:295-312): age, metallicity, spectrum. -/
def SspGrid.getSsp (g : SspGrid) (i : ℤ) (spacing : PyStr) : Py (Num × Num × Arr Num) := do
  let ids ← getitem [.all, .at i] g.parIdx
  let z ← getitem [.at (ids.get [0] : ℤ)] g.zCents
  let t ← getitem [.at (ids.get [1] : ℤ)] g.tCents
  if spacing = "wavelength".toList then do
    let s ← getitem [.all, .at i] g.X
    .ok (t.get [], z.get [], s)
  else if spacing = "log-wavelength".toList then
    match g.xw with
    | some w => do
      let s ← getitem [.all, .at i] w
      .ok (t.get [], z.get [], s)
    | none => .error .attributeError
  else .error .valueError

/-- The attributes read by cubes, after `get_light_weights` (ifu_cube.py:50). -/
def SspGrid.toSSPs (g : SspGrid) : Py SSPs := do
  let lw ← g.lightWeights
  .ok { zEdges := g.zEdges, tEdges := g.tEdges, zCents := g.zCents, tCents := g.tCents, deltaT := g.deltaT, deltaZ := g.deltaZ,
        lightWeights := lw }

end PKM
