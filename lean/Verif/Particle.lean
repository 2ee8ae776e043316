import Verif.Component

/-!
# Components from particles

Model of `components/particle.py` and of the part of `np.histogramdd` it uses.
-/

open scoped Classical

noncomputable section

namespace PKM
open Np

/-- IEEE `==` (false as soon as one side is nan). -/
def Num.eqv (a b : Num) : Prop := a ≠ .nan ∧ a = b

namespace Np

/-- `np.searchsorted(e, x, side='right')` for a sorted array `e`: how many entries are `<= x`; nan is sorted
behind everything. -/
def searchRight (e : Arr Num) (x : Num) : ℕ :=
  if x = .nan then e.shape.headD 0 else (List.range (e.shape.headD 0)).countP (fun i => Num.le (e.get [i]) x)

/-- The bin number `np.histogramdd` assigns along one axis: 0 and `len(e)` stand for values below and above
all bins; values on the last edge are moved to the last bin. -/
def binNumber (e : Arr Num) (x : Num) : ℕ :=
  if Num.eqv x (e.get [e.shape.headD 0 - 1]) then searchRight e x - 1 else searchRight e x

/-- Coordinates and weight of every data point. -/
def histRows (sample : List (List Num)) (weights : Option (List Num)) (n : ℕ) : List (List Num × Num) :=
  (List.range n).map fun k => (sample.map (fun s => s.getD k .nan),
    match weights with
    | none => .fin 1
    | some w => w.getD k .nan)

/-- Division by the bin widths, one axis after another. -/
def divWidths : List (Arr Num) → List ℕ → Num → Num
  | e :: es, i :: is, x => divWidths es is (x / (e.get [i + 1] - e.get [i]))
  | _, _, x => x

/-- `np.histogramdd(sample, bins=edges, density=True, weights=weights)[0]` as called at particle.py:51-53 for a list
of 1D arrays. `ValueError` for data of different lengths, for weights of another length, and for edges that decrease.
Counting through flattened bin numbers (`ravel_multi_index`, `bincount`, `reshape`) is simplified to a sum per bin. -/
def histogramdd (sample : List (List Num)) (edges : List (Arr Num)) (weights : Option (List Num)) : Py (Arr Num) :=
  let n := (sample.headD []).length
  if ∃ s ∈ sample, s.length ≠ n then .error .valueError
  else if ∃ w ∈ weights, w.length ≠ n then .error .valueError
  else if ∃ e ∈ edges, ∃ i, i + 1 < e.shape.headD 0 ∧ Num.lt (e.get [i + 1]) (e.get [i]) then .error .valueError
  else
    let rows := histRows sample weights n
    let shape := edges.map (fun e => e.shape.headD 0 - 1)
    let hist : List ℕ → Num := fun i =>
      (rows.map fun r => if List.zipWith binNumber edges r.1 = i.map (· + 1) then r.2 else 0).sum
    let s := sumShape shape hist
    .ok ⟨shape, fun i => divWidths edges i (hist i) / s⟩

end Np

/-- The numbers printed by the constructor: particles lost, all particles, and for each of t, v, x1, x2, z
how many lie below the first and above the last edge. -/
structure LossReport where
  nLost : ℕ
  nTotal : ℕ
  perVar : List (ℕ × ℕ)

/-- First and last entry of the edges. -/
def edgeLims (e : Arr Num) : Num × Num := (e.get [0], e.get [e.shape.headD 0 - 1])

/-- Every coordinate lies between the first and last edge, inclusive (particle.py:30-41). -/
def inBounds (edges : List (Arr Num)) (row : List Num) : Prop :=
  ∀ q ∈ List.zip edges row, Num.le (edgeLims q.1).1 q.2 ∧ Num.le q.2 (edgeLims q.1).2

/-- `FromParticle.__init__` (particle.py:24-56). The printed message is returned as a value. Data arrays are
one-dimensional; arrays of different lengths end in a `ValueError`, raised here at the start. -/
def fromParticle (cube : IFUCube) (t v x1 x2 z : List Num) (mass : Option (List Num)) : Py (Arr Num × LossReport) := do
  let edges ← [['t'], ['v'], ['x','1'], ['x','2'], ['z']].mapM cube.getVariableEdges
  let data := [t, v, x1, x2, z]
  let nTotal := t.length
  if ∃ s ∈ data, s.length ≠ nTotal then .error .valueError
  else do
    let nIn := (histRows data none nTotal).countP (fun r => inBounds edges r.1)
    let perVar := (List.zip data edges).map fun q =>
      (q.1.countP (fun x => Num.lt x (edgeLims q.2).1), q.1.countP (fun x => Num.lt (edgeLims q.2).2 x))
    let p ← histogramdd data edges mass
    let logP := map Num.log p
    let stored ← Component.init cube logP
    .ok (stored, ⟨nTotal - nIn, nTotal, perVar⟩)

end PKM
