import Verif.Moments

/-!
# Model of `components.mixture.Mixture` (mixture.py)

A mixture only uses the public interface of its members plus their `_get_log_p_*` methods; `Child`
collects those.
-/

open scoped Classical

noncomputable section

namespace PKM
open Np

/-- What a `Mixture` reads from one element of `component_list`. -/
structure Child where
  /-- `getattr(cmp, "_get_log_p_" + w)` (mixture.py:154); `none` = no such attribute. -/
  logP : PyStr → Option (Bool → Bool → Py (Arr Num))
  /-- `cmp.get_p(w, density, light_weighted)` (mixture.py:289, 313). -/
  getP : PyStr → Bool → Bool → Py (Arr Num)
  /-- `cmp.get_mean(w, light_weighted)` (mixture.py:272). -/
  getMean : PyStr → Bool → Py (Arr Num)
  /-- `cmp.get_noncentral_moment(w, j, mu, light_weighted)` (mixture.py:338). -/
  getNcm : PyStr → ℕ → Arr Num → Bool → Py (Arr Num)
  /-- `cmp.ybar` (mixture.py:45, 47); `none` = `evaluate_ybar` was not called yet. -/
  ybar : Option (Arr Num)

/-- A non-mixture component as a member of a mixture. -/
def Component.child (s : Self) (ybar : Option (Arr Num)) : Child where
  logP := s.logP
  getP := Component.getP s
  getMean := Component.getMean s
  getNcm := Component.getNoncentralMoment s
  ybar := ybar

/-- The attributes of a `Mixture` (mixture.py:26-33). `ybar` is `none` until `evaluate_ybar`. -/
structure Mix where
  cube : IFUCube
  children : List Child
  weights : List ℝ
  ybar : Option (Arr Num)

namespace Mix

/-- `np.isclose(a, 1.0)`: `|a - 1| <= 1e-8 + 1e-5 * |1|`. -/
def isCloseOne (a : ℝ) : Prop := |a - 1| ≤ 1 / 10 ^ 8 + 1 / 10 ^ 5

/-- `Mixture.__init__` (mixture.py:25-33): the three assertions in order. -/
def init (cube : IFUCube) (children : List Child) (weights : List ℝ) : Py Mix :=
  if children.length = weights.length then
    if ∀ w ∈ weights, 0 < w then
      if isCloseOne weights.sum then
        .ok ⟨cube, children, weights, none⟩
      else .error .assertionError
    else .error .assertionError
  else .error .assertionError

/-- `self.weights` as an array. -/
def weightArr (m : Mix) : Arr Num := vec m.weights.length (fun i => .fin (m.weights.getD i 0))

/-- `self.component_list[0].ybar` and `comp.ybar`: `AttributeError` if not evaluated. -/
def childYbar (c : Child) : Py (Arr Num) :=
  match c.ybar with
  | some y => .ok y
  | none => .error .attributeError

/-- The loop `for comp, weight in zip(...): ybar += weight * comp.ybar` (mixture.py:46-47). -/
def addYbar : Arr Num → List (Child × ℝ) → Py (Arr Num)
  | acc, [] => .ok acc
  | acc, (c, w) :: r => do
    let y ← childYbar c
    let wy := map (fun v => Num.fin w * v) y
    let acc ← iadd acc wy
    addYbar acc r

/-- `evaluate_ybar` (mixture.py:35-48): the new state of the mixture. `component_list[0]` raises
`IndexError` on an empty list. -/
def evaluateYbar (m : Mix) : Py Mix :=
  match m.children with
  | [] => .error .indexError
  | c :: _ => do
    let y0 ← childYbar c
    let ybar ← addYbar (full y0.shape (.fin 0)) (m.children.zip m.weights)
    .ok { m with ybar := some ybar }

/-- `log_p_func(density=density, light_weighted=False)` plus `np.log(w)` (mixture.py:154-155). -/
def logPi (w : PyStr) (density : Bool) (cw : Child × ℝ) : Py (Arr Num) :=
  match cw.1.logP w with
  | some f => do
    let a ← f density false
    .ok (map (fun v => Num.log (.fin cw.2) + v) a)
  | none => .error .attributeError

/-- The loop of mixture.py:153-159: the first result fixes the shape of the rows, later results are
broadcast into their row (`log_p[i] = log_pi`). -/
def rowsLoop (f : Child × ℝ → Py (Arr Num)) : Option (List ℕ) → List (Child × ℝ) → Py (List (Arr Num))
  | _, [] => .ok []
  | none, cw :: r => do
    let a ← f cw
    let rest ← rowsLoop f (some a.shape) r
    .ok (a :: rest)
  | some s, cw :: r => do
    let a ← f cw
    let b ← broadcastTo s a
    let rest ← rowsLoop f (some s) r
    .ok (b :: rest)

/-- `_get_log_marginal_distribution_mass_wtd` (mixture.py:137-160); without components the name
`log_p` is unbound. `len(component_list) = len(weights)` is checked by the constructor, so the zip
visits all components. -/
def massWtd (m : Mix) (w : PyStr) (density : Bool) : Py (Arr Num) := do
  let rows ← rowsLoop (logPi w density) none (m.children.zip m.weights)
  match rows with
  | [] => .error .unboundLocalError
  | a :: r => .ok ⟨(r.length + 1) :: a.shape, fun i => ((a :: r).getD (i.headD 0) a).get i.tail⟩

/-- `_get_log_marginal_distribution_light_wtd` (mixture.py:162-200). -/
def lightWtd (m : Mix) (w : PyStr) (density : Bool) : Py (Arr Num) := do
  let current := if 'v' ∈ w then ['t','v','x','z'] else ['t','x','z']
  let lw ← (if 'v' ∈ w then getitem [.na, .all, .na, .na, .na, .all] m.cube.ssps.lightWeights
    else getitem [.na, .all, .na, .na, .all] m.cube.ssps.lightWeights : Py (Arr Num))
  let pMw ← massWtd m current false
  let p ← add pMw (map Num.log lw)
  let p ← isub p (logsumexpAll p)
  let p ← (if 't' ∉ w then logsumexp [1] p else .ok p : Py (Arr Num))
  let p ← (if 'x' ∉ w then logsumexp [-3, -2] p else .ok p : Py (Arr Num))
  let p ← (if 'z' ∉ w then logsumexp [-1] p else .ok p : Py (Arr Num))
  if density then do
    let d ← m.cube.constructVolumeElement w
    isub p (map Num.log d)
  else .ok p

/-- The `else` branch of `get_log_p` (mixture.py:124-132): marginals, one row per component. -/
def marginalRows (m : Mix) (w : PyStr) (density lw : Bool) : Py (Arr Num) :=
  if lw then lightWtd m w density else massWtd m w density

/-- `if collapse_cmps: log_p = special.logsumexp(log_p, 0)` (mixture.py:133-134). -/
def collapseIf (collapse : Bool) (p : Arr Num) : Py (Arr Num) :=
  if collapse then logsumexp [0] p else .ok p

/-- `_get_log_conditional_distribution` (mixture.py:202-244). The inner `get_log_p` calls concern
strings without underscore. -/
def conditionalRows (m : Mix) (w : PyStr) (density lw : Bool) : Py (Arr Num) :=
  match PyStr.split '_' w with
  | [dist, marginal] => do
    let joint := PyStr.sorted (dist ++ marginal)
    let logPJoint ← marginalRows m joint false lw
    let logPMarginal ← marginalRows m marginal false lw
    let logPMarginal ← collapseIf true logPMarginal
    let joint := PyStr.replaceX joint
    let marginal := PyStr.replaceX marginal
    let joint := 'i' :: joint
    let logPJoint ← moveaxis (Component.oldPos joint marginal) (Component.newPos marginal.length)
      logPJoint
    let logPCond ← sub logPJoint logPMarginal
    if density then do
      let dvol ← m.cube.constructVolumeElement w
      sub logPCond (map Num.log dvol)
    else .ok logPCond
  | _ => .error .valueError

/-- `get_log_p` (mixture.py:88-135). -/
def getLogP (m : Mix) (w : PyStr) (collapse density lw : Bool) : Py (Arr Num) := do
  let p ← (if '_' ∈ w then conditionalRows m w density lw else marginalRows m w density lw
    : Py (Arr Num))
  collapseIf collapse p

/-- `get_p` (mixture.py:50-86). -/
def getP (m : Mix) (w : PyStr) (collapse density lw : Bool) : Py (Arr Num) := do
  let p ← getLogP m w collapse density lw
  .ok (map Num.exp p)

/-- `np.array([f(cmp) for cmp in self.component_list])`. -/
def gather (m : Mix) (f : Child → Py (Arr Num)) : Py (Arr Num) := do
  let as ← m.children.mapM f
  stack as

/-- `_get_light_reweightings` (mixture.py:308-319). -/
def lightReweightings (m : Mix) : Py (Arr Num) := do
  let pTz ← getP m ['t','z'] true false false
  let pTzi ← gather m (fun c => c.getP ['t','z'] false false)
  let lw := m.cube.ssps.lightWeights
  let a ← mul lw pTzi
  let a ← sum [1, 2] a
  let b ← mul lw pTz
  div a (sumAll b)

/-- `rw` of `get_mean` (mixture.py:277-280). -/
def reweight (m : Mix) (lw : Bool) : Py (Arr Num) :=
  if lw then lightReweightings m else .ok (full [m.children.length] (.fin 1))

/-- `get_mean` (mixture.py:246-306). -/
def getMean (m : Mix) (w : PyStr) (lw : Bool) : Py (Arr Num) := do
  let mui ← gather m (fun c => c.getMean w lw)
  let rw ← reweight m lw
  if '_' ∈ w then do
    let var := Component.headVar w
    let cond ← Component.condVars w
    let wp ← gather m (fun c => c.getP cond true lw)
    let wp ← mul (T wp) (weightArr m)
    let wp := T wp
    let wp ← (if var = ['x'] then getitem [.all, .na] wp else .ok wp : Py (Arr Num))
    let denom ← getP m cond true true lw
    let a ← mul (T wp) rw
    let a ← mul a (T mui)
    let s ← sum [-1] a
    div (T s) denom
  else do
    let a ← mul (weightArr m) rw
    let a ← mul a (T mui)
    let s ← sum [-1] a
    .ok (T s)

/-- `get_central_moment` (mixture.py:321-367). -/
def getCentralMoment (m : Mix) (w : PyStr) (j : ℕ) (lw : Bool) : Py (Arr Num) := do
  let mu ← getMean m w lw
  let mui ← gather m (fun c => c.getNcm w j mu lw)
  if '_' ∈ w then do
    let var := Component.headVar w
    let cond ← Component.condVars w
    let wp ← getP m cond false true lw
    let wp ← (if var = ['x'] then getitem [.all, .na] wp else .ok wp : Py (Arr Num))
    let a ← mul wp mui
    let a ← sum [0] a
    let b ← sum [0] wp
    div a b
  else do
    let mui ← moveaxis [0] [-1] mui
    if lw then do
      let rw ← lightReweightings m
      let a ← mul (weightArr m) rw
      let a ← mul a mui
      sum [-1] a
    else do
      let a ← mul (weightArr m) mui
      sum [-1] a

/-- The object seen by the methods inherited from `Component` (variance, covariance, L-moments...).
They pass `density` and `light_weighted` by keyword and leave `collapse_cmps` at its default. -/
def obj (m : Mix) : Obj where
  cube := m.cube
  getP := fun w density lw => getP m w true density lw
  getMean := getMean m
  getCentralMoment := getCentralMoment m

/-- What the inherited `get_noncentral_moment` reads from a mixture: its cube and its own `get_p` (mixture.py:50-86), which
overrides the one of `Component`; a mixture has no `get_noncentral_moment_*` methods. Simplification: `Component.getP` of this
object retries with joint over marginal after an `AttributeError`, which a mixture does not; the joint then fails in the same way. -/
def ncmSelf (m : Mix) : Self where
  cube := m.cube
  logP := fun w => some (fun d l => getLogP m w true d l)
  meanHC := fun _ => none
  ncmHC := fun _ => none

/-- `get_noncentral_moment` (base.py:233-282), inherited. -/
def getNoncentralMoment (m : Mix) (w : PyStr) (j : ℕ) (mu : Arr Num) (lw : Bool) : Py (Arr Num) :=
  Component.getNoncentralMoment m.ncmSelf w j mu lw

/-- A mixture as a member of another mixture. It inherits the `_get_log_p_*` methods of `Component`
(base.py:884-1174), which read `self.log_p_tvxz`, an attribute a mixture does not have, and
`get_noncentral_moment` (base.py:233-282), which calls the mixture's own `get_p`. -/
def child (m : Mix) : Child where
  logP := fun w => if w ∈ [['t'], ['t','v'], ['t','x'], ['t','z'], ['t','v','x'], ['t','v','z'],
      ['t','x','z'], ['t','v','x','z'], ['v'], ['v','x'], ['v','z'], ['v','x','z'], ['x'], ['x','z'],
      ['z']] then some (fun _ _ => .error .attributeError) else none
  getP := fun w density lw => getP m w true density lw
  getMean := getMean m
  getNcm := getNoncentralMoment m
  ybar := m.ybar

end Mix
end PKM
