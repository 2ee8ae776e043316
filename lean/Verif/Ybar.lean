import Verif.Component
import Mathlib.Analysis.SpecialFunctions.Complex.Circle
import Mathlib.Analysis.Complex.Trigonometric

/-!
# Model of the datacube evaluation of plain components

`Component.evaluate_ybar` (base.py:789-882), the part of `milesSSPs` that prepares spectra
(model_grids.py:240-281) and the numpy functions used there.

External functions: the FFTs of numpy are modelled by the finite sums they compute. The cubic
spline of `scipy.interpolate.interp1d` is a parameter `interp`.
-/

open scoped Classical

noncomputable section

namespace PKM
open Np

namespace Fft

/-- `exp(2 pi i m / n)`. -/
def root (n : ℕ) (m : ℤ) : ℂ := Complex.exp (2 * Real.pi * Complex.I * m / n)

/-- Entry `k` of `np.fft.rfft(x, n)` for a real signal `x` of length `len`: the signal is cut or
padded with zeros to length `n`. -/
def rfft (len n : ℕ) (x : ℕ → ℝ) (k : ℕ) : ℂ :=
  ∑ j ∈ Finset.range n, (if j < len then (x j : ℂ) else 0) * root n (-(k * j))

/-- Number of entries of `rfft(x, n)`. -/
def half (n : ℕ) : ℕ := n / 2 + 1

/-- Entry `k` of `np.fft.irfft(Y, n)`: `Y` holds the `n // 2 + 1` non-negative frequencies of a
Hermitian spectrum; the imaginary parts of the first and (for even `n`) last entries are ignored. -/
def irfft (n : ℕ) (Y : ℕ → ℂ) (k : ℕ) : ℝ :=
  ((Y 0).re + ∑ j ∈ Finset.Ico 1 (half n),
    (if 2 * j = n then (Y j * root n (j * k)).re else 2 * (Y j * root n (j * k)).re)) / n

end Fft

namespace Np

/-- `np.fft.rfft(a, axis=ax)` for real arrays. -/
def rfftAxis (ax : ℕ) (a : Arr ℝ) : Arr ℂ :=
  let n := a.shape.getD ax 0
  ⟨a.shape.set ax (Fft.half n), fun i => Fft.rfft n n (fun j => a.get (i.set ax j)) (i.getD ax 0)⟩

/-- `np.fft.irfft(a, n, axis=ax)`; the input has at least `n // 2 + 1` entries along the axis. -/
def irfftAxis (ax n : ℕ) (a : Arr ℂ) : Arr ℝ :=
  ⟨a.shape.set ax n, fun i => Fft.irfft n (fun j => a.get (i.set ax j)) (i.getD ax 0)⟩

/-- `np.roll(a, shift, axis=ax)` for a non-negative shift. -/
def rollAxis {α : Type} (shift ax : ℕ) (a : Arr α) : Arr α :=
  let n := a.shape.getD ax 0
  ⟨a.shape, fun i => a.get (i.set ax ((i.getD ax 0 + (n - shift % n)) % n))⟩

/-- `np.isclose(x, y)` with default tolerances, for finite numbers (nan is close to nothing). -/
def isclose : Num → Num → Prop
  | .fin a, .fin b => |a - b| ≤ 1 / 10 ^ 8 + 1 / 10 ^ 5 * |b|
  | .pinf, .pinf => True
  | .ninf, .ninf => True
  | _, _ => False

/-- `np.reshape(a, (-1,) + s)`. -/
def reshapeInfer {α : Type} (s : List ℕ) (a : Arr α) : Py (Arr α) :=
  if s.prod = 0 then .error .valueError
  else reshape ((a.shape.prod / s.prod) :: s) a

end Np

/-- Attributes of `milesSSPs` set by `_logarithmically_resample(dv)` and
`_calculate_fourier_transform()` (model_grids.py:240-281), which `IFUCube.__init__` calls
(ifu_cube.py:48-50), and `par_dims = (nz, nt)`. -/
structure Spectra where
  dv : ℝ
  Xw : Arr ℝ
  nFft : ℕ
  FXw : Arr ℂ
  parDims : List ℕ

/-- `_calculate_fourier_transform` (model_grids.py:263-281), with `Xw` of shape
`(len(w), number of SSPs)`. `pad` is `False` (`none`), or a string. `int(np.ceil(np.log2(n)))` is
`Nat.clog 2 n`. -/
def Spectra.fourier (dv : ℝ) (Xw : Arr ℝ) (parDims : List ℕ) (pad : Option PyStr) : Py Spectra := do
  let len := Xw.shape.headD 0
  let n ← (match pad with
    | none => .ok len
    | some p => if p = "ppxf".toList then .ok (2 ^ Nat.clog 2 len) else .error .valueError : Py ℕ)
  let X := T Xw
  let F : Arr ℂ := ⟨X.shape.set 1 (Fft.half n), fun i =>
    Fft.rfft len n (fun j => X.get (i.set 1 j)) (i.getD 1 0)⟩
  .ok ⟨dv, Xw, n, T F, parDims⟩

namespace Component

/-- First bin whose centre is close to zero; `np.where(...)[0][0]` raises `IndexError` if there is
none (base.py:822-823, 842). -/
def v0Idx (v : Arr Num) : Py ℕ :=
  match (List.range (v.shape.headD 0)).find? (fun i => decide (isclose (v.get [i]) (.fin 0))) with
  | some i => .ok i
  | none => .error .indexError

/-- Bin centres `(v_edg[:-1] + v_edg[1:]) / 2` (base.py:818, 841). -/
def vCentres (vEdg : Arr Num) : Py (Arr Num) := do
  let lo ← getitem [.sl 0 (some (-1))] vEdg
  let hi ← getitem [.sl 1 none] vEdg
  let s ← add lo hi
  .ok (map (fun d => d / .fin 2) s)

/-- Order on floats used by `np.sort(v) == v`: no nan, non-decreasing. -/
def numLe : Num → Num → Prop
  | .fin a, .fin b => a ≤ b
  | .ninf, .fin _ => True
  | .fin _, .pinf => True
  | .ninf, .ninf => True
  | .pinf, .pinf => True
  | .ninf, .pinf => True
  | _, _ => False

/-- The nested function `validate_v_edg` (base.py:810-833). -/
def validateVEdg (vEdg : Arr Num) (dv : ℝ) : Py Unit := do
  let hi ← getitem [.sl 1 none] vEdg
  let lo ← getitem [.sl 0 (some (-1))] vEdg
  let d ← sub hi lo
  let check1 : Prop := ∀ i < d.shape.headD 0, isclose (d.get [i]) (.fin dv)
  let v ← vCentres vEdg
  let n := v.shape.headD 0
  let check2 : Prop := ∀ i, i + 1 < n → numLe (v.get [i]) (v.get [i + 1])
  let v0 ← v0Idx v
  let check3 : Prop := if n % 2 = 1 then 2 * v0 = n - 1 else 2 * v0 = n
  if check1 ∧ check2 ∧ check3 then .ok () else .error .valueError

/-- `interp1d(linspace(0,1,m), F, axis=1, kind="cubic")(linspace(0,1,k))` (base.py:846-853). Fewer than
four points raise `ValueError`. `interp m Y x` is the interpolant through the `m` equally spaced
points `Y`. -/
def interpAxis1 (interp : ℕ → (ℕ → ℂ) → ℝ → ℂ) (k : ℕ) (F : Arr ℂ) : Py (Arr ℂ) :=
  let m := F.shape.getD 1 0
  if m < 4 then .error .valueError
  else .ok ⟨F.shape.set 1 k, fun i => interp m (fun j => F.get (i.set 1 j)) ((i.getD 1 0 : ℝ) / (k - 1 : ℝ))⟩

/-- The value of a finite float. -/
def finPart : Num → ℝ
  | .fin r => r
  | _ => 0

/-- `F_p_tvxz` (base.py:839-853): rolled, transformed and interpolated density. The densities are
finite; transforms of arrays with infinities or nan are not modelled (`finPart`). -/
def fourierDensity (interp : ℕ → (ℕ → ℂ) → ℝ → ℂ) (p : Arr Num) (v0 : ℕ) (dv : ℝ) (k : ℕ) : Py (Arr ℂ) :=
  let p : Arr ℝ := map finPart p
  let p := rollAxis (p.shape.getD 1 0 - v0) 1 p
  interpAxis1 interp k (map (fun z => z * (dv : ℂ)) (rfftAxis 1 p))

/-- `F_s_w_tz` (base.py:836-837), axes `(t, omega, z)`. -/
def fourierSpectra (sp : Spectra) : Py (Arr ℂ) := do
  let F ← reshapeInfer sp.parDims sp.FXw
  moveaxis [-1] [0] F

/-- `np.fft.irfft(.., ssps.n_fft, axis=1)` followed by `np.sum(y * dtz, axes) * dx * dy`
(base.py:857-859, 866-868, 876-879). -/
def sumSpectra (sp : Spectra) (cube : IFUCube) (F : Arr ℂ) (dtz : Arr Num) (axes : List ℤ) :
    Py (Arr Num) := do
  let y := map Num.fin (irfftAxis 1 sp.nFft F)
  let y ← mul y dtz
  let y ← Np.sum axes y
  .ok (map (fun a => a * cube.dx * cube.dy) y)

/-- `y[:, :, i] = a` (base.py:868): the column is replaced, `a` must broadcast to it. -/
def setColumn (y : Arr Num) (i : ℕ) (a : Arr Num) : Py (Arr Num) := do
  let b ← broadcastTo [y.shape.getD 0 0, y.shape.getD 1 0] a
  .ok ⟨y.shape, fun k => if k.getD 2 0 = i then b.get [k.getD 0 0, k.getD 1 0] else y.get k⟩

/-- `y[:, i, j] = a` (base.py:877). -/
def setSpaxel (y : Arr Num) (i j : ℕ) (a : Arr Num) : Py (Arr Num) := do
  let b ← broadcastTo [y.shape.getD 0 0] a
  .ok ⟨y.shape, fun k => if k.getD 1 0 = i ∧ k.getD 2 0 = j then b.get [k.getD 0 0] else y.get k⟩

/-- Branch `batch == "none"` (base.py:854-859). -/
def ybarNone (sp : Spectra) (cube : IFUCube) (Fs Fp : Arr ℂ) : Py (Arr Num) := do
  let a ← getitem [.all, .na, .na, .na, .na] cube.ssps.deltaT
  let b ← getitem [.na, .na, .na, .na, .all] cube.ssps.deltaZ
  let dtz ← mul a b
  let Fs ← getitem [.all, .all, .na, .na, .all] Fs
  let F ← bop (· * ·) Fs Fp
  sumSpectra sp cube F dtz [0, 4]

/-- Branch `batch == "column"` (base.py:860-868). -/
def ybarColumn (sp : Spectra) (cube : IFUCube) (Fs Fp : Arr ℂ) : Py (Arr Num) := do
  let y : Arr Num := full [sp.Xw.shape.headD 0, cube.nx, cube.ny] (.fin 0)
  let a ← getitem [.all, .na, .na, .na] cube.ssps.deltaT
  let b ← getitem [.na, .na, .na, .all] cube.ssps.deltaZ
  let dtz ← mul a b
  let Fs ← getitem [.all, .all, .na, .all] Fs
  (List.range cube.ny).foldlM (fun y (i : ℕ) => do
    let P ← getitem [.all, .all, .all, .at i, .all] Fp
    let F ← bop (· * ·) Fs P
    let yi ← sumSpectra sp cube F dtz [0, 3]
    setColumn y i yi) y

/-- Branch `batch == "spaxel"` (base.py:869-879). -/
def ybarSpaxel (sp : Spectra) (cube : IFUCube) (Fs Fp : Arr ℂ) : Py (Arr Num) := do
  let y : Arr Num := full [sp.Xw.shape.headD 0, cube.nx, cube.ny] (.fin 0)
  let a ← getitem [.all, .na, .na] cube.ssps.deltaT
  let b ← getitem [.na, .na, .all] cube.ssps.deltaZ
  let dtz ← mul a b
  (List.range cube.nx).foldlM (fun y (i : ℕ) =>
    (List.range cube.ny).foldlM (fun y (j : ℕ) => do
      let P ← getitem [.all, .all, .at i, .at j, .all] Fp
      let F ← bop (· * ·) Fs P
      let yij ← sumSpectra sp cube F dtz [0, 2]
      setSpaxel y i j yij) y) y

/-- `evaluate_ybar` (base.py:789-882): the array stored in `self.ybar`. -/
def evaluateYbar (interp : ℕ → (ℕ → ℂ) → ℝ → ℂ) (s : Self) (sp : Spectra) (batch : PyStr) :
    Py (Arr Num) := do
  let cube := s.cube
  validateVEdg cube.vEdg sp.dv
  let Fs ← fourierSpectra sp
  let p ← getP s "tvxz".toList true false
  let v ← vCentres cube.vEdg
  let v0 ← v0Idx v
  let Fp ← fourierDensity interp p v0 sp.dv (Fs.shape.getD 1 0)
  if batch = "none".toList then ybarNone sp cube Fs Fp
  else if batch = "column".toList then ybarColumn sp cube Fs Fp
  else if batch = "spaxel".toList then ybarSpaxel sp cube Fs Fp
  else .error .valueError

end Component
end PKM
