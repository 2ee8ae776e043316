import Verif.Heap

/-!
# Model of `noise.py`

The standard normal draws of numpy's global generator are a parameter `z : ℕ → ℝ`; memory records how many have been used.
-/

open scoped Classical

noncomputable section

namespace PKM
open Np

/-- Larger of two floats as in `np.max`: nan wins. -/
def Num.npMax (a b : Num) : Num :=
  match a, b with
  | .nan, _ => .nan
  | _, .nan => .nan
  | a, b => if Num.le a b then b else a

/-- Take `k` numbers from the global generator; the result is the number of the first. -/
def H.draw (k : ℕ) : H ℕ := fun h => (.ok h.drawn, { h with drawn := h.drawn + k })

namespace Np

/-- All indices of a shape in row-major order. -/
def allIndices : List ℕ → List (List ℕ)
  | [] => [[]]
  | n :: s => (List.range n).flatMap fun j => (allIndices s).map (j :: ·)

/-- `np.max(a)`: an empty array raises `ValueError`. -/
def maxAll (a : Arr Num) : Py Num :=
  match (allIndices a.shape).map a.get with
  | [] => .error .valueError
  | x :: r => .ok (r.foldl Num.npMax x)

/-- `stats.norm(mu, sigma).rvs()` (noise.py:37-39): `ValueError` ("Domain error in arguments") unless every scale is `>= 0`;
no draw if every scale is zero; otherwise `draw * scale + loc` with one draw per entry, in row-major order. -/
def normRvs (z : ℕ → ℝ) (mu sigma : Arr Num) : H Ptr := do
  let b ← H.lift (bop Prod.mk mu sigma)
  if ∀ i, InBox sigma.shape i → Num.le (.fin 0) (sigma.get i) then
    if ∀ i, InBox sigma.shape i → sigma.get i = .fin 0 then
      H.new (.ok (map (fun p => p.1 * .fin 1) b))
    else do
      let k ← H.draw b.shape.prod
      H.new (.ok ⟨b.shape, fun i => .fin (z (k + ravel b.shape i)) * (b.get i).2 + (b.get i).1⟩)
  else H.throw .valueError

end Np

/-- A component as seen by the noise classes: the attribute `ybar` is missing until `evaluate_ybar` has run
(noise.py:7-14). -/
structure NoiseTarget where
  ybar : Option Ptr

/-- `self.component.ybar`. -/
def NoiseTarget.getYbar (c : NoiseTarget) : H Ptr :=
  match c.ybar with
  | some o => pure o
  | none => H.throw .attributeError

/-- The two subclasses of `Diagonal`. -/
inductive NoiseKind
  | constantSNR
  | shotNoise

/-- `ConstantSNR.get_sigma` (noise.py:46-54) as a function of the datacube. -/
def constantSigma (y : Arr Num) (snr : Num) : Py (Arr Num) := Np.div y (scalar snr)

/-- `ShotNoise.get_sigma` (noise.py:57-71) as a function of the datacube. -/
def shotSigma (y : Arr Num) (snr : Num) : Py (Arr Num) := do
  let max_ybar ← maxAll y
  let K := Num.sqrt max_ybar / snr
  Np.mul (scalar K) (map Num.sqrt y)

/-- `get_sigma` of either class, as a function of the datacube. -/
def sigmaOf (k : NoiseKind) (y : Arr Num) (snr : Num) : Py (Arr Num) :=
  match k with
  | .constantSNR => constantSigma y snr
  | .shotNoise => shotSigma y snr

/-- `get_sigma` (noise.py:46-54, 57-71): a new array. -/
def getSigma (c : NoiseTarget) (k : NoiseKind) (snr : Num) : H Ptr := do
  let ybar ← c.getYbar
  let y ← H.read ybar
  H.new (sigmaOf k y snr)

/-- `Diagonal.sample` (noise.py:29-39). -/
def sample (z : ℕ → ℝ) (c : NoiseTarget) (k : NoiseKind) (snr : Num) : H Ptr := do
  let sigma ← getSigma c k snr
  let ybar ← c.getYbar
  let y ← H.read ybar
  let mu ← H.new (.ok (full y.shape (.fin 0)))
  let m ← H.read mu
  let s ← H.read sigma
  normRvs z m s

/-- `Noise.get_noisy_data` (noise.py:16-21); the only keyword argument accepted by `get_sigma` is `snr`. -/
def getNoisyData (z : ℕ → ℝ) (c : NoiseTarget) (k : NoiseKind) (snr : Num) : H Ptr := do
  let ybar ← c.getYbar
  let eps ← sample z c k snr
  let y ← H.read ybar
  let e ← H.read eps
  H.new (Np.add y e)

end PKM
