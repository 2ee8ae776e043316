import Verif.Ssp
import Verif.Ybar

/-!
# Model of an SSP object shared by several cubes

`IFUCube.__init__` (ifu_cube.py:20-50) stores derived spectra on the SSP object it is given. Several cubes
can be given the same object; each construction overwrites what the previous one stored.

External functions: `scipy.interpolate.interp1d` is a parameter (`Interp1d`).
-/

open scoped Classical

noncomputable section

namespace PKM
open Np Component

/-- `scipy.interpolate.interp1d(x, y, kind=kind)`: `check kind n` tells whether `n` points can be used with this kind (it raises
`ValueError` or `NotImplementedError` otherwise), `eval kind x y` is the interpolant through the points `x`, `y`. -/
structure Interp1d where
  check : PyStr → ℕ → Py Unit
  eval : PyStr → List ℝ → (ℕ → ℝ) → ℝ → ℝ

/-- Attributes set by `_logarithmically_resample` (model_grids.py:257-261): `dv`, `w`, `Xw`. (`dw` is `dv / 299792`.) -/
structure LogGrid where
  dv : ℝ
  w : List ℝ
  Xw : Arr ℝ

/-- An SSP object and what constructions of cubes have stored on it: nothing at first (`none`). `fft` holds `n_fft` and `FXw`
(model_grids.py:280-281), `light` holds `light_weights` (model_grids.py:293). -/
structure SharedSsps where
  grid : SspGrid
  log : Option LogGrid
  fft : Option (ℕ × Arr ℂ)
  light : Option (Arr Num)

namespace SharedSsps

/-- The object after `milesSSPs(...)`. -/
def fresh (g : SspGrid) : SharedSsps := ⟨g, none, none, none⟩

/-- `np.arange(a, b, step)` in exact arithmetic; a zero step raises `ValueError` (infinite length). -/
def arange (a b step : ℝ) : Py (List ℝ) :=
  if step = 0 then .error .valueError
  else .ok ((List.range ⌈(b - a) / step⌉.toNat).map (fun i : ℕ => a + i * step))

/-- `np.min(a)`; `ValueError` if empty. -/
def amin : List ℝ → Py ℝ
  | [] => .error .valueError
  | x :: l => .ok (l.foldl min x)

/-- `np.max(a)`; `ValueError` if empty. -/
def amax : List ℝ → Py ℝ
  | [] => .error .valueError
  | x :: l => .ok (l.foldl max x)

/-- The values computed by `_logarithmically_resample` (model_grids.py:249-256, 258-261). Wavelengths are positive and spectra are
finite (`finPart`). `bounds_error=False, fill_value=0` gives 0 outside of the range of the wavelengths. -/
def resampled (K : Interp1d) (dv : ℝ) (kind : PyStr) (g : SspGrid) : Py LogGrid := do
  let dw := dv / 299792
  let w_in := g.lmd.map Real.log
  let _ ← (if g.X.shape.headD 0 = w_in.length then K.check kind w_in.length else .error .valueError : Py Unit)
  let lo ← amin w_in
  let hi ← amax w_in
  let w ← arange lo hi dw
  let f (k : ℕ) (x : ℝ) : ℝ :=
    if x < lo ∨ hi < x then 0 else K.eval kind w_in (fun j => finPart (g.X.get [j, k])) x
  .ok ⟨dv, w, ⟨[w.length, g.X.shape.getD 1 0], fun i => f (i.getD 1 0) (w.getD (i.getD 0 0) 0)⟩⟩

/-- `_logarithmically_resample` (model_grids.py:240-261): nothing is stored if the computation raises. -/
def logResample (K : Interp1d) (dv : ℝ) (kind : PyStr) (s : SharedSsps) : Py SharedSsps := do
  let l ← resampled K dv kind s.grid
  .ok { s with log := some l }

/-- `_calculate_fourier_transform()` (model_grids.py:263-281) with the default `pad=False`; a transform of length 0 raises
`ValueError`. -/
def calcFourier (s : SharedSsps) : Py SharedSsps :=
  match s.log with
  | none => .error .attributeError
  | some l =>
    if l.w.length = 0 then .error .valueError
    else do
      let sp ← Spectra.fourier l.dv l.Xw s.grid.parDims none
      .ok { s with fft := some (sp.nFft, sp.FXw) }

/-- `get_light_weights` (model_grids.py:283-293). -/
def calcLight (s : SharedSsps) : Py SharedSsps := do
  let lw ← s.grid.lightWeights
  .ok { s with light := some lw }

/-- The attributes of the SSP object which cubes read. -/
def toSSPs (s : SharedSsps) : SSPs :=
  { zEdges := s.grid.zEdges, tEdges := s.grid.tEdges, zCents := s.grid.zCents, tCents := s.grid.tCents,
    deltaT := s.grid.deltaT, deltaZ := s.grid.deltaZ, lightWeights := s.light.getD (full [] .nan) }

end SharedSsps

/-- Arguments of `IFUCube(...)` other than the SSP object (ifu_cube.py:20-31). -/
structure CubeArgs where
  nx : ℤ
  ny : ℤ
  nv : ℤ
  x1rng : ℝ × ℝ
  x2rng : ℝ × ℝ
  vrng : ℝ × ℝ
  kind : PyStr

/-- `IFUCube(ssps, ...)` (ifu_cube.py:20-50): the new cube or the exception raised, and the SSP object afterwards. What has been
stored before an exception stays stored. -/
def makeCube (K : Interp1d) (a : CubeArgs) (s : SharedSsps) : Py IFUCube × SharedSsps :=
  match IFUCube.init s.toSSPs a.nx a.ny a.nv a.x1rng a.x2rng a.vrng with
  | .error e => (.error e, s)
  | .ok c =>
    let dv := finPart (c.vEdg.get [1]) - finPart (c.vEdg.get [0])
    match s.logResample K dv a.kind with
    | .error e => (.error e, s)
    | .ok s1 =>
      match s1.calcFourier with
      | .error e => (.error e, s1)
      | .ok s2 =>
        match s2.calcLight with
        | .error e => (.error e, s2)
        | .ok s3 => (.ok { c with ssps := s3.toSSPs }, s3)

/-- `Component.evaluate_ybar` (base.py:789-882) reading the spectra from the SSP object as it is at the time of the call. -/
def evaluateShared (interp : ℕ → (ℕ → ℂ) → ℝ → ℂ) (self : Self) (s : SharedSsps) (batch : PyStr) : Py (Arr Num) :=
  match s.log with
  | none => .error .attributeError
  | some l =>
    match s.fft with
    | none => do
      validateVEdg self.cube.vEdg l.dv
      .error .attributeError
    | some f => evaluateYbar interp self ⟨l.dv, l.Xw, f.1, f.2, s.grid.parDims⟩ batch

end PKM
