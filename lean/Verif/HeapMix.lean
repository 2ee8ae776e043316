import Verif.HeapParam
import Verif.Mixture

/-!
# Mixtures, in memory

A second model of `Mixture` (mixture.py), with array objects. `log_p[i] = log_pi` and `ybar += ...` write in place, `-=` writes in
place, slices, transposes and `np.moveaxis` are views, `np.array([...])` and arithmetic make new arrays. A mixture holds references to
its members and calls their methods, so what the members return may be arrays that belong to them; the array `mu` of a central moment
is passed to the members. The definitions follow those of `Mixture.lean`; the same lines are modelled.
-/

open scoped Classical

noncomputable section

namespace PKM
open Np

/-- What a mixture reads from one of its members; cf. `Child`. -/
structure HChild where
  logP : PyStr → Option (Bool → Bool → H Ptr)
  getP : PyStr → Bool → Bool → H Ptr
  getMean : PyStr → Bool → H Ptr
  getNcm : PyStr → ℕ → Ptr → Bool → H Ptr
  ybar : Option Ptr

/-- A component other than a mixture as a member; cf. `Component.child`. -/
def HComp.child (s : HSelf) (ybar : Option Ptr) : HChild where
  logP := s.logP
  getP := HComp.getP s
  getMean := HComp.getMean s
  getNcm := HComp.getNoncentralMoment s
  ybar := ybar

/-- The attributes of a `Mixture` (mixture.py:26-33): `cube`, `component_list`, `n_cmps`, `weights` and, once it is evaluated,
`ybar`. The arrays are references. -/
structure HMix where
  cube : HCube
  children : List HChild
  nCmps : ℕ
  weights : Ptr
  ybar : Option Ptr

namespace H

/-- `np.array([f(c) for c in l])`, before the array is made. -/
def eachChild (f : HChild → H Ptr) : List HChild → H (List Ptr)
  | [] => pure []
  | c :: l => do
    let o ← f c
    let r ← eachChild f l
    pure (o :: r)

/-- `np.zeros((n,) + a.shape)`. (Indices outside the shape have no entry in Python; what the model keeps there never matters.) -/
def zerosFor (n : ℕ) (a : Arr Num) : H Ptr :=
  new (.ok ⟨n :: a.shape, fun i => if InBox (n :: a.shape) i then .fin 0 else a.get i.tail⟩)

/-- `log_p = np.zeros((n,) + row.shape)` and `log_p[i] = row` (mixture.py:156-158): the row has the right shape. -/
def firstRow (n i : ℕ) (row : Ptr) : H Ptr := do
  let a ← read row
  let o ← zerosFor n a
  let v ← getitem [.at i] o
  write v a
  pure o

/-- `o[i] = row` (mixture.py:158): the row is broadcast, and written through the view `o[i]`. -/
def setRow (o : Ptr) (i : ℕ) (row : Ptr) : H Unit := do
  let a ← read row
  let v ← getitem [.at i] o
  let c ← read v
  let b ← lift (Np.broadcastTo c.shape a)
  write v b

end H

namespace HMix

/-- `weight` in `for ..., weight in zip(..., self.weights)` at position `i`: read when the loop gets there. -/
def weight (m : HMix) (i : ℕ) : H Num := do
  let w ← H.read m.weights
  pure (w.get [i])

/-- `zip(self.component_list, self.weights)`, with positions instead of weights. -/
def zipped (m : HMix) : H (List (HChild × ℕ)) := do
  let w ← H.read m.weights
  pure (m.children.zip (List.range (w.shape.headD 0)))

/-- Reading `comp.ybar`. -/
def childYbar (c : HChild) : H Ptr :=
  match c.ybar with
  | some y => pure y
  | none => H.throw .attributeError

/-- `for comp, weight in zip(...): ybar += weight * comp.ybar` (mixture.py:46-47). -/
def addYbar (m : HMix) (ybar : Ptr) : List (HChild × ℕ) → H Unit
  | [] => pure ()
  | (c, i) :: r => do
    let w ← m.weight i
    let y ← childYbar c
    let wy ← H.map (fun v => w * v) y
    H.iadd ybar wy
    addYbar m ybar r

/-- `evaluate_ybar` (mixture.py:35-48): the new attributes of the mixture. -/
def evaluateYbar (m : HMix) : H HMix :=
  match m.children with
  | [] => H.throw .indexError
  | c :: _ => do
    let y0 ← childYbar c
    let ybar ← H.op1 (fun a => .ok (full a.shape (.fin 0))) y0
    let l ← m.zipped
    m.addYbar ybar l
    pure { m with ybar := some ybar }

/-- `np.log(w) + log_p_func(density=density, light_weighted=False)` (mixture.py:154-155). -/
def logPi (m : HMix) (w : PyStr) (density : Bool) (ci : HChild × ℕ) : H Ptr := do
  let x ← m.weight ci.2
  match ci.1.logP w with
  | some f => do
    let a ← f density false
    H.map (fun v => Num.log x + v) a
  | none => H.throw .attributeError

/-- The loop of mixture.py:152-159 after the first member: rows `i`, `i + 1`, ... of `log_p`. -/
def rowsFrom (f : HChild × ℕ → H Ptr) (o : Ptr) : ℕ → List (HChild × ℕ) → H Ptr
  | _, [] => pure o
  | i, ci :: r => do
    let a ← f ci
    H.setRow o i a
    rowsFrom f o (i + 1) r

/-- The loop of mixture.py:152-159; without members the name `log_p` is unbound. -/
def rows (m : HMix) (f : HChild × ℕ → H Ptr) : List (HChild × ℕ) → H Ptr
  | [] => H.throw .unboundLocalError
  | ci :: r => do
    let a ← f ci
    let o ← H.firstRow m.nCmps 0 a
    rowsFrom f o 1 r

/-- `_get_log_marginal_distribution_mass_wtd` (mixture.py:137-160). -/
def massWtd (m : HMix) (w : PyStr) (density : Bool) : H Ptr := do
  let l ← m.zipped
  m.rows (m.logPi w density) l

/-- The last step of `_get_log_marginal_distribution_light_wtd` (mixture.py:197-199), in place. -/
def perVolume (m : HMix) (w : PyStr) (p : Ptr) : H Ptr := do
  let d ← m.cube.constructVolumeElement w
  let l ← H.map Num.log d
  H.isub p l
  pure p

/-- `_get_log_marginal_distribution_light_wtd` (mixture.py:162-200): the normalisation is subtracted in place. -/
def lightWtd (m : HMix) (w : PyStr) (density : Bool) : H Ptr := do
  let current := if 'v' ∈ w then ['t','v','x','z'] else ['t','x','z']
  let lw ← (if 'v' ∈ w then H.getitem [.na, .all, .na, .na, .na, .all] m.cube.lightWeights
    else H.getitem [.na, .all, .na, .na, .all] m.cube.lightWeights : H Ptr)
  let pMw ← massWtd m current false
  let l ← H.map Num.log lw
  let p ← H.op2 add pMw l
  let norm ← H.op1 (fun a => .ok (logsumexpAll a)) p
  H.isub p norm
  let p ← H.onlyIf ('t' ∉ w) (H.op1 (logsumexp [1])) p
  let p ← H.onlyIf ('x' ∉ w) (H.op1 (logsumexp [-3, -2])) p
  let p ← H.onlyIf ('z' ∉ w) (H.op1 (logsumexp [-1])) p
  H.onlyIf density (m.perVolume w) p

/-- The marginals of `get_log_p`, one row per component (mixture.py:124-132). -/
def marginalRows (m : HMix) (w : PyStr) (density lw : Bool) : H Ptr :=
  if lw then m.lightWtd w density else m.massWtd w density

/-- `if collapse_cmps: log_p = special.logsumexp(log_p, 0)` (mixture.py:133-134). -/
def collapseIf (collapse : Bool) (p : Ptr) : H Ptr := H.onlyIf collapse (H.op1 (logsumexp [0])) p

/-- `_get_log_conditional_distribution` (mixture.py:202-244). -/
def conditionalRows (m : HMix) (w : PyStr) (density lw : Bool) : H Ptr :=
  match PyStr.split '_' w with
  | [dist, marginal] => do
    let joint := PyStr.sorted (dist ++ marginal)
    let logPJoint ← m.marginalRows joint false lw
    let logPMarginal ← m.marginalRows marginal false lw
    let logPMarginal ← collapseIf true logPMarginal
    let joint := PyStr.replaceX joint
    let marginal := PyStr.replaceX marginal
    let joint := 'i' :: joint
    let logPJoint ← H.moveaxis (Component.oldPos joint marginal) (Component.newPos marginal.length) logPJoint
    let logPCond ← H.op2 sub logPJoint logPMarginal
    if density then do
      let dvol ← m.cube.constructVolumeElement w
      let l ← H.map Num.log dvol
      H.op2 sub logPCond l
    else pure logPCond
  | _ => H.throw .valueError

/-- `get_log_p` (mixture.py:88-135). -/
def getLogP (m : HMix) (w : PyStr) (collapse density lw : Bool) : H Ptr := do
  let p ← (if '_' ∈ w then m.conditionalRows w density lw else m.marginalRows w density lw : H Ptr)
  collapseIf collapse p

/-- `get_p` (mixture.py:50-86). -/
def getP (m : HMix) (w : PyStr) (collapse density lw : Bool) : H Ptr := do
  let p ← m.getLogP w collapse density lw
  H.map Num.exp p

/-- `np.array([f(cmp) for cmp in self.component_list])`. -/
def gather (m : HMix) (f : HChild → H Ptr) : H Ptr := do
  let l ← H.eachChild f m.children
  H.stackN l

/-- `_get_light_reweightings` (mixture.py:308-319). -/
def lightReweightings (m : HMix) : H Ptr := do
  let pTz ← m.getP ['t','z'] true false false
  let pTzi ← m.gather (fun c => c.getP ['t','z'] false false)
  let a ← H.op2 mul m.cube.lightWeights pTzi
  let a ← H.op1 (sum [1, 2]) a
  let b ← H.op2 mul m.cube.lightWeights pTz
  let b ← H.op1 (fun x => .ok (sumAll x)) b
  H.op2 div a b

/-- `rw` of `get_mean` (mixture.py:277-280). -/
def reweight (m : HMix) (lw : Bool) : H Ptr :=
  if lw then m.lightReweightings else H.new (.ok (full [m.nCmps] (.fin 1)))

/-- `w_p_cond[:, na]` for positions. -/
def addAxis (w : PyStr) (wp : Ptr) : H Ptr :=
  if Component.headVar w = ['x'] then H.getitem [.all, .na] wp else pure wp

/-- `get_mean` (mixture.py:246-306). -/
def getMean (m : HMix) (w : PyStr) (lw : Bool) : H Ptr := do
  let mui ← m.gather (fun c => c.getMean w lw)
  let rw ← m.reweight lw
  if '_' ∈ w then do
    let cond ← H.lift (Component.condVars w)
    let wp ← m.gather (fun c => c.getP cond true lw)
    let wpT ← H.T wp
    let wp ← H.op2 mul wpT m.weights
    let wp ← H.T wp
    let wp ← addAxis w wp
    let denom ← m.getP cond true true lw
    let wpT ← H.T wp
    let a ← H.op2 mul wpT rw
    let muiT ← H.T mui
    let a ← H.op2 mul a muiT
    let s ← H.op1 (sum [-1]) a
    let sT ← H.T s
    H.op2 div sT denom
  else do
    let a ← H.op2 mul m.weights rw
    let muiT ← H.T mui
    let a ← H.op2 mul a muiT
    let s ← H.op1 (sum [-1]) a
    H.T s

/-- `get_central_moment` (mixture.py:321-367): the same array `mu` is passed to every member. -/
def getCentralMoment (m : HMix) (w : PyStr) (j : ℕ) (lw : Bool) : H Ptr := do
  let mu ← m.getMean w lw
  let mui ← m.gather (fun c => c.getNcm w j mu lw)
  if '_' ∈ w then do
    let cond ← H.lift (Component.condVars w)
    let wp ← m.getP cond false true lw
    let wp ← addAxis w wp
    let a ← H.op2 mul wp mui
    let a ← H.op1 (sum [0]) a
    let b ← H.op1 (sum [0]) wp
    H.op2 div a b
  else do
    let mui ← H.moveaxis [0] [-1] mui
    if lw then do
      let rw ← m.lightReweightings
      let a ← H.op2 mul m.weights rw
      let a ← H.op2 mul a mui
      H.op1 (sum [-1]) a
    else do
      let a ← H.op2 mul m.weights mui
      H.op1 (sum [-1]) a

/-- The object seen by the methods inherited from `Component`; cf. `Mix.obj`. -/
def obj (m : HMix) : HObj where
  cube := m.cube
  getP := fun w density lw => m.getP w true density lw
  getMean := m.getMean
  getCentralMoment := m.getCentralMoment

/-- The inherited `get_noncentral_moment` (base.py:233-282) sees the mixture's own `get_p`; cf. `Mix.child`. -/
def ncmSelf (m : HMix) : HSelf where
  cube := m.cube
  logP := fun w => some (fun d l => m.getLogP w true d l)
  meanHC := fun _ => none
  ncmHC := fun _ => none

/-- `get_noncentral_moment` (base.py:233-282). -/
def getNcm (m : HMix) (w : PyStr) (j : ℕ) (mu : Ptr) (lw : Bool) : H Ptr := HComp.getNoncentralMoment m.ncmSelf w j mu lw

end HMix

end PKM
