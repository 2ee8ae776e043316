import Verif.Ybar
import Verif.Parametric

/-!
# Model of the datacube evaluation of parametric components

`ParametricComponent.evaluate_ybar` (parametric.py:335-407), which overrides that of the base class: the
Fourier transform of the velocity distribution is the analytic one of the normal law.
-/

open scoped Classical

noncomputable section

namespace PKM
open Np Component

namespace Np

/-- Sum over the labels `ls` (with their sizes) of `f`, starting from the assignment `env` of indices to the
other labels. -/
def sumLabels : List (Char × ℕ) → ((Char → ℕ) → ℂ) → (Char → ℕ) → ℂ
  | [], f, env => f env
  | (c, n) :: ls, f, env => ∑ i ∈ Finset.range n, sumLabels ls f (Function.update env c i)

/-- Sizes that the operands give to the labels. -/
def labelSizes (ops : List (PyStr × Arr ℂ)) : List (Char × ℕ) := ops.flatMap fun o => o.1.zip o.2.shape

/-- Size of a label. -/
def labelSize (ops : List (PyStr × Arr ℂ)) (c : Char) : ℕ := ((labelSizes ops).lookup c).getD 0

/-- The assignment of the index `i` to the labels `out`. -/
def labelEnv (out : PyStr) (i : List ℕ) : Char → ℕ := fun c => i.getD (out.idxOf c) 0

/-- `np.einsum("l1,l2,..->out", a1, a2, ..)` with explicit output, for operands without repeated labels. An
operand of the wrong rank, or a label with two different sizes, is a `ValueError` (that numpy
stretches axes of length 1 is not modelled). -/
def einsum (ops : List (PyStr × Arr ℂ)) (out : PyStr) : Py (Arr ℂ) :=
  if (∀ o ∈ ops, o.1.length = o.2.shape.length) ∧ (∀ q ∈ labelSizes ops, labelSize ops q.1 = q.2) then
    let summed := ((ops.flatMap (·.1)).dedup.filter (· ∉ out)).map fun c => (c, labelSize ops c)
    .ok ⟨out.map (labelSize ops), fun i =>
      sumLabels summed (fun env => (ops.map fun o => o.2.get (o.1.map env)).prod) (labelEnv out i)⟩
  else .error .valueError

end Np

namespace Param

/-- `omega = np.linspace(0, np.pi, nl) / ssps.dv` with `nl = ssps.FXw.shape[0]` (parametric.py:359-361). -/
def omega (sp : Spectra) : Arr ℝ :=
  let nl := sp.FXw.shape.headD 0
  vec nl fun k => k * (Real.pi / (nl - 1 : ℝ)) / sp.dv

/-- `np.exp(-1j * mu * omega - 0.5 * (sig * omega) ** 2)` (parametric.py:368-369, 380-384, 394-398). Means and
dispersions are finite; complex infinities and nan are not modelled (`finPart`). -/
def fourierV (mu sig : Arr Num) (om : Arr ℝ) : Py (Arr ℂ) := do
  let a ← bop (fun m (w : ℝ) => -Complex.I * (finPart m : ℂ) * (w : ℂ)) mu om
  let b ← bop (fun s (w : ℝ) => (finPart s : ℂ) * (w : ℂ)) sig om
  let e ← bop (fun (x y : ℂ) => x - 0.5 * y ^ 2) a b
  .ok (map Complex.exp e)

/-- Branch `batch == "none"` (parametric.py:366-373). -/
def ybarNone (p : Param) (sp : Spectra) (P Fs : Arr ℂ) : Py (Arr Num) := do
  let om ← getitem [.all, .na, .na, .na] (omega sp)
  let mu ← attr p.muV
  let sig ← attr p.sigV
  let Fv ← fourierV mu sig om
  let F ← einsum [(['t','x','y','z'], P), (['w','t','x','y'], Fv), (['w','z','t'], Fs)] ['w','x','y']
  .ok (map Num.fin (irfftAxis 0 sp.nFft F))

/-- Branch `batch == "column"` (parametric.py:374-388). -/
def ybarColumn (p : Param) (sp : Spectra) (P Fs : Arr ℂ) : Py (Arr Num) := do
  let y : Arr Num := full [sp.Xw.shape.headD 0, p.cube.nx, p.cube.ny] (.fin 0)
  let om ← getitem [.all, .na, .na] (omega sp)
  (List.range p.cube.ny).foldlM (fun y (i : ℕ) => do
    let mu ← attr p.muV
    let mu ← getitem [.all, .all, .at i] mu
    let sig ← attr p.sigV
    let sig ← getitem [.all, .all, .at i] sig
    let Fv ← fourierV mu sig om
    let Pi ← getitem [.all, .all, .at i, .all] P
    let F ← einsum [(['t','x','z'], Pi), (['w','t','x'], Fv), (['w','z','t'], Fs)] ['w','x']
    setColumn y i (map Num.fin (irfftAxis 0 sp.nFft F))) y

/-- Branch `batch == "spaxel"` (parametric.py:389-404). -/
def ybarSpaxel (p : Param) (sp : Spectra) (P Fs : Arr ℂ) : Py (Arr Num) := do
  let y : Arr Num := full [sp.Xw.shape.headD 0, p.cube.nx, p.cube.ny] (.fin 0)
  let om ← getitem [.all, .na] (omega sp)
  (List.range p.cube.nx).foldlM (fun y (i : ℕ) =>
    (List.range p.cube.ny).foldlM (fun y (j : ℕ) => do
      let mu ← attr p.muV
      let mu ← getitem [.all, .at i, .at j] mu
      let sig ← attr p.sigV
      let sig ← getitem [.all, .at i, .at j] sig
      let Fv ← fourierV mu sig om
      let Pij ← getitem [.all, .at i, .at j, .all] P
      let F ← einsum [(['t','z'], Pij), (['w','t'], Fv), (['w','z','t'], Fs)] ['w']
      setSpaxel y i j (map Num.fin (irfftAxis 0 sp.nFft F))) y) y

/-- `evaluate_ybar` (parametric.py:335-407): the array stored in `self.ybar`. `sp` are the spectra that the
SSP object holds at the time of the call. The probabilities are finite (`finPart`). -/
def evaluateYbar (p : Param) (sp : Spectra) (batch : PyStr) : Py (Arr Num) := do
  let P ← Component.getP p.self "txz".toList false false
  let P : Arr ℂ := map (fun a => ((finPart a : ℝ) : ℂ)) P
  let Fs ← reshapeInfer sp.parDims sp.FXw
  if batch = "none".toList then p.ybarNone sp P Fs
  else if batch = "column".toList then p.ybarColumn sp P Fs
  else if batch = "spaxel".toList then p.ybarSpaxel sp P Fs
  else .error .valueError

end Param
end PKM
