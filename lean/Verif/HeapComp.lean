import Verif.Heap
import Verif.Moments

/-!
# The queries of a component, in memory

A second model of the volume elements and bin values of a cube (ifu_cube.py) and of the query methods of `Component` (base.py),
now with array objects: attributes are references, slices, transposes and `np.moveaxis` are views, arithmetic makes new arrays and
`+=`, `-=` write in place. Python scalars that numpy returns for 0-dimensional results are treated as 0-dimensional arrays.
-/

open scoped Classical

noncomputable section

namespace PKM
open Np

namespace H

/-- A numpy function of one array that returns a new array. -/
def op1 (f : Arr Num → Py (Arr Num)) (a : Ptr) : H Ptr := do
  let x ← read a
  new (f x)

/-- A numpy function of two arrays that returns a new array. -/
def op2 (f : Arr Num → Arr Num → Py (Arr Num)) (a b : Ptr) : H Ptr := do
  let x ← read a
  let y ← read b
  new (f x y)

/-- An element-wise function (`np.exp(a)`, `np.log(a)`, `a ** 0.5`): a new array. -/
def map (f : Num → Num) (a : Ptr) : H Ptr := op1 (fun x => .ok (Np.map f x)) a

/-- `a.copy()`, `copy.copy(a)`. -/
def copy (a : Ptr) : H Ptr := op1 .ok a

/-- `a += b`, `a -= b` for array objects. -/
def iop2 (f : Num → Num → Num) (a b : Ptr) : H Unit := do
  let y ← read b
  iop f a y

/-- `a += b`. -/
def iadd (a b : Ptr) : H Unit := iop2 (· + ·) a b
/-- `a -= b`. -/
def isub (a b : Ptr) : H Unit := iop2 (· - ·) a b

end H

/-- A cube in memory: the arrays are references (ifu_cube.py:20-50, model_grids.py:80-95). -/
structure HCube where
  /-- `ssps.delta_t`, `ssps.delta_z` -/
  deltaT : Ptr
  deltaZ : Ptr
  /-- `ssps.par_cents[1]`, `ssps.par_cents[0]` -/
  tCents : Ptr
  zCents : Ptr
  /-- `ssps.par_edges[1]`, `ssps.par_edges[0]` -/
  tEdges : Ptr
  zEdges : Ptr
  /-- `ssps.light_weights` -/
  lightWeights : Ptr
  /-- `x`, `y`, `v_edg` -/
  x : Ptr
  y : Ptr
  vEdg : Ptr
  /-- `dx`, `dy` -/
  dx : Num
  dy : Num

namespace HCube

/-- `da` in `construct_volume_element` (ifu_cube.py:76-85): the cube's own arrays for `t` and `z`. -/
def volDa (c : HCube) (var : Char) (prev : Option Ptr) : H Ptr :=
  if var = 't' then pure c.deltaT
  else if var = 'v' then do
    let hi ← H.getitem [.sl 1 none] c.vEdg
    let lo ← H.getitem [.sl 0 (some (-1))] c.vEdg
    H.op2 sub hi lo
  else if var = 'x' then H.new (.ok (full [1] c.dx))
  else if var = 'y' then H.new (.ok (full [1] c.dy))
  else if var = 'z' then pure c.deltaZ
  else match prev with
    | some d => pure d
    | none => H.throw .unboundLocalError

/-- The loop (ifu_cube.py:75-90): `dvol = dvol * da[idx]` makes a new array. -/
def volLoop (c : HCube) (ndim : ℕ) : ℕ → List Char → Option Ptr → Ptr → H Ptr
  | _, [], _, dvol => pure dvol
  | count, var :: rest, prev, dvol => do
    let da ← volDa c var prev
    let d ← H.getitem (List.replicate count .na ++ [.all] ++ List.replicate (ndim - count - 1) .na) da
    let dvol ← H.op2 mul dvol d
    volLoop c ndim (count + 1) rest (some da) dvol

/-- `np.ones` and the loop (ifu_cube.py:70-90). -/
def volStart (c : HCube) (dist : PyStr) : H Ptr := do
  let dvol ← H.new (.ok (full (List.replicate dist.length 1) (.fin 1)))
  volLoop c dist.length 0 dist none dvol

/-- `dvol[idx]`, a view (ifu_cube.py:91-94). -/
def volView (extra : ℕ) (dvol : Ptr) : H Ptr := do
  let a ← H.read dvol
  H.getitem (List.replicate a.shape.length .all ++ List.replicate extra .na) dvol

/-- `construct_volume_element` (ifu_cube.py:52-95). -/
def constructVolumeElement (c : HCube) (w : PyStr) : H Ptr :=
  if '_' ∈ w then
    match PyStr.split '_' w with
    | [dist, marg] => do
      let dvol ← volStart c (PyStr.replaceX dist)
      volView (PyStr.replaceX marg).length dvol
    | _ => H.throw .valueError
  else do
    let dvol ← volStart c (PyStr.replaceX w)
    volView 0 dvol

/-- `get_variable_values` (ifu_cube.py:97-120): the cube's own arrays, except for `v`. -/
def getVariableValues (c : HCube) (w : PyStr) : H Ptr :=
  if w = ['t'] then pure c.tCents
  else if w = ['v'] then do
    let lo ← H.getitem [.sl 0 (some (-1))] c.vEdg
    let hi ← H.getitem [.sl 1 none] c.vEdg
    let s ← H.op2 add lo hi
    H.map (fun d => d / .fin 2) s
  else if w = ['z'] then pure c.zCents
  else if w = ['x','1'] then pure c.x
  else if w = ['x','2'] then pure c.y
  else H.throw .valueError

/-- `np.concatenate([x - dx/2, [x[-1] + dx/2]])` (ifu_cube.py:139,141). -/
def spatialEdges (x : Ptr) (dx : Num) : H Ptr := do
  let lo ← H.op1 (fun a => sub a (scalar (dx / .fin 2))) x
  let last ← H.getitem [.at (-1)] x
  let hi ← H.op1 (fun a => add a (scalar (dx / .fin 2))) last
  let hi ← H.op1 (fun a => stack [a]) hi
  H.op2 concat0 lo hi

/-- `get_variable_edges` (ifu_cube.py:122-144): the cube's own arrays, except for `x1` and `x2`. -/
def getVariableEdges (c : HCube) (w : PyStr) : H Ptr :=
  if w = ['t'] then pure c.tEdges
  else if w = ['v'] then pure c.vEdg
  else if w = ['z'] then pure c.zEdges
  else if w = ['x','1'] then spatialEdges c.x c.dx
  else if w = ['x','2'] then spatialEdges c.y c.dy
  else H.throw .valueError

/-- `get_variable_size` (ifu_cube.py:146-157). -/
def getVariableSize (c : HCube) (w : PyStr) : H ℕ := do
  let a ← getVariableValues c w
  let a ← H.read a
  H.lift (IFUCube.pyLen a)

/-- The sizes appended for one variable (ifu_cube.py:172-177). -/
def axisShape (c : HCube) (var : Char) : H (List ℕ) :=
  if var = 'x' then do
    let n1 ← getVariableSize c ['x','1']
    let n2 ← getVariableSize c ['x','2']
    pure [n1, n2]
  else do
    let n ← getVariableSize c [var]
    pure [n]

/-- The loop of `get_distribution_shape` (ifu_cube.py:171-177). -/
def shapeLoop (c : HCube) : List Char → H (List ℕ)
  | [] => pure []
  | var :: rest => do
    let d ← axisShape c var
    let r ← shapeLoop c rest
    pure (d ++ r)

/-- `get_distribution_shape` (ifu_cube.py:159-179). -/
def getDistributionShape (c : HCube) (w : PyStr) : H (List ℕ) := shapeLoop c (PyStr.dropUnderscore w)

end HCube

/-- What the methods of `Component` read from `self`; cf. `Self`. -/
structure HSelf where
  cube : HCube
  logP : PyStr → Option (Bool → Bool → H Ptr)
  meanHC : PyStr → Option (Bool → H Ptr)
  ncmHC : PyStr → Option (ℕ → Ptr → Bool → H Ptr)

/-- The public methods used by the derived moments; cf. `Obj`. -/
structure HObj where
  cube : HCube
  getP : PyStr → Bool → Bool → H Ptr
  getMean : PyStr → Bool → H Ptr
  getCentralMoment : PyStr → ℕ → Bool → H Ptr

namespace HComp

/-- `_get_log_marginal_distribution` (base.py:106-128). -/
def getLogMarginal (s : HSelf) (w : PyStr) (density lw : Bool) : H Ptr :=
  match s.logP w with
  | some f => f density lw
  | none => H.throw .attributeError

/-- The `except` branch of `_get_log_conditional_distribution` (base.py:158-176). -/
def condFromJoint (s : HSelf) (w dist marginal : PyStr) (density lw : Bool) : H Ptr := do
  let joint := PyStr.sorted (dist ++ marginal)
  let logPJoint ← getLogMarginal s joint false lw
  let logPMarginal ← getLogMarginal s marginal false lw
  let joint := PyStr.replaceX joint
  let marginal := PyStr.replaceX marginal
  let logPJoint ← H.moveaxis (Component.oldPos joint marginal) (Component.newPos marginal.length) logPJoint
  let logPCond ← H.op2 sub logPJoint logPMarginal
  if density then do
    let dvol ← s.cube.constructVolumeElement w
    let l ← H.map Num.log dvol
    H.op2 sub logPCond l
  else pure logPCond

/-- `_get_log_conditional_distribution` (base.py:130-177). -/
def getLogConditional (s : HSelf) (w : PyStr) (density lw : Bool) : H Ptr :=
  if '_' ∈ w then
    match PyStr.split '_' w with
    | [dist, marginal] => H.tryExcept (getLogMarginal s w density lw) (condFromJoint s w dist marginal density lw)
    | _ => H.throw .valueError
  else H.throw .assertionError

/-- `get_log_p` (base.py:67-104): returns the array of the method called. -/
def getLogP (s : HSelf) (w : PyStr) (density lw : Bool) : H Ptr :=
  if '_' ∈ w then getLogConditional s w density lw else getLogMarginal s w density lw

/-- `get_p` (base.py:33-65). -/
def getP (s : HSelf) (w : PyStr) (density lw : Bool) : H Ptr := do
  let logP ← getLogP s w density lw
  H.map Num.exp logP

/-! ### The base component: `log_p_tvxz` is a reference to the array given to the constructor -/

/-- Light weighting in `_get_log_p_tvxz` (base.py:1035-1039), in place. -/
def applyLight (c : HCube) (logP : Ptr) : H Unit := do
  let l ← H.getitem [.all, .na, .na, .na, .all] c.lightWeights
  let logLw ← H.map Num.log l
  H.iadd logP logLw
  let norm ← H.op1 (fun a => .ok (logsumexpAll a)) logP
  H.isub logP norm

/-- `_get_log_p_tvxz` (base.py:1030-1041): a copy, then in-place updates. -/
def logPtvxz (c : HCube) (stored : Ptr) (density lw : Bool) : H Ptr := do
  let logP ← H.copy stored
  let dvol ← c.constructVolumeElement ['t','v','x','z']
  let logD ← H.map Num.log dvol
  H.iadd logP logD
  let _ ← (if lw then applyLight c logP else pure () : H Unit)
  let _ ← (if density then H.isub logP logD else pure () : H Unit)
  pure logP

/-- The marginals (base.py:884-1174): `logsumexp` makes a new array, then `-=`. -/
def logPmarg (c : HCube) (stored : Ptr) (axes : List ℤ) (vol : H Ptr) (density lw : Bool) : H Ptr := do
  let lp ← logPtvxz c stored false lw
  let r ← H.op1 (logsumexp axes) lp
  if density then do
    let d ← vol
    let l ← H.map Num.log d
    H.isub r l
    pure r
  else pure r

/-- The methods `_get_log_p_*` by name; lines as in `Component.baseLogP`. -/
def baseLogP (c : HCube) (stored : Ptr) (w : PyStr) : Option (Bool → Bool → H Ptr) :=
  let m (axes : List ℤ) := some (logPmarg c stored axes (c.constructVolumeElement w))
  if w = ['t'] then some (logPmarg c stored [1, 2, 3, 4] (pure c.deltaT))
  else if w = ['t','v'] then m [2, 3, 4]
  else if w = ['t','x'] then m [1, 4]
  else if w = ['t','z'] then m [1, 2, 3]
  else if w = ['t','v','x'] then m [4]
  else if w = ['t','v','z'] then m [2, 3]
  else if w = ['t','x','z'] then m [1]
  else if w = ['t','v','x','z'] then some (logPtvxz c stored)
  else if w = ['v'] then m [0, 2, 3, 4]
  else if w = ['v','x'] then m [0, 4]
  else if w = ['v','z'] then m [0, 2, 3]
  else if w = ['v','x','z'] then m [0]
  else if w = ['x'] then m [0, 1, 4]
  else if w = ['x','z'] then m [0, 1]
  else if w = ['z'] then m [0, 1, 2, 3]
  else none

/-- A plain `Component`. -/
def baseSelf (c : HCube) (stored : Ptr) : HSelf where
  cube := c
  logP := baseLogP c stored
  meanHC := fun _ => none
  ncmHC := fun _ => none

/-! ### Moments -/

/-- `a, b = mu`: two views, if the first axis has length two (base.py:270, 308). -/
def unpack2 (mu : Ptr) : H (Ptr × Ptr) := do
  let m ← H.read mu
  rows m.shape
where
  /-- The rows of an array of the given shape. -/
  rows : List ℕ → H (Ptr × Ptr)
    | n :: _ => if n = 2 then do
          let a ← H.getitem [.at 0] mu
          let b ← H.getitem [.at 1] mu
          pure (a, b)
        else H.throw .valueError
    | [] => H.throw .typeError

/-- The nested function of `get_mean` (base.py:209-224). -/
def meanDefault (s : HSelf) (w : PyStr) (lw : Bool) : H Ptr := do
  let p ← getP s w false lw
  if Component.headVar w ∈ [['t'], ['v'], ['z']] then do
    let var ← s.cube.getVariableValues (Component.headVar w)
    let vT ← H.T var
    let pT ← H.T p
    let r ← H.op2 mul vT pT
    let rT ← H.T r
    H.op1 (sum [0]) rT
  else if Component.headVar w = ['x'] then do
    let p1 ← H.op1 (sum [1]) p
    let p2 ← H.op1 (sum [0]) p
    let p1T ← H.T p1
    let m1 ← H.op2 mul s.cube.x p1T
    let m1 ← H.op1 (sum [-1]) m1
    let p2T ← H.T p2
    let m2 ← H.op2 mul s.cube.y p2T
    let m2 ← H.op1 (sum [-1]) m2
    let m1T ← H.T m1
    let m2T ← H.T m2
    H.op2 (fun a b => stack [a, b]) m1T m2T
  else H.throw .assertionError

/-- `get_mean` (base.py:179-231). -/
def getMean (s : HSelf) (w : PyStr) (lw : Bool) : H Ptr :=
  if (Component.headVar w).length = 1 then
    match s.meanHC w with
    | some f => f lw
    | none => meanDefault s w lw
  else H.throw .assertionError

/-- `np.power(val - mu[na].T, j)` (base.py:261, 271-272). -/
def powDelta (val mu : Ptr) (j : ℕ) : H Ptr := do
  let m ← H.getitem [.na] mu
  let mT ← H.T m
  let d ← H.op2 sub val mT
  H.map (fun x => x.npow j) d

/-- The nested function of `get_noncentral_moment` (base.py:257-274). -/
def momentDefault (s : HSelf) (w : PyStr) (j : ℕ) (mu : Ptr) (lw : Bool) : H Ptr := do
  let p ← getP s w false lw
  if Component.headVar w ∈ [['t'], ['v'], ['z']] then do
    let val ← s.cube.getVariableValues (Component.headVar w)
    let q ← powDelta val mu j
    let pT ← H.T p
    let r ← H.op2 mul q pT
    let rT ← H.T r
    H.op1 (sum [0]) rT
  else if Component.headVar w = ['x'] then do
    let p1 ← H.op1 (sum [1]) p
    let p2 ← H.op1 (sum [0]) p
    let mus ← unpack2 mu
    let q1 ← powDelta s.cube.x mus.1 j
    let q2 ← powDelta s.cube.y mus.2 j
    let q1T ← H.T q1
    let m1 ← H.op2 mul q1T p1
    let m1 ← H.op1 (sum [0]) m1
    let q2T ← H.T q2
    let m2 ← H.op2 mul q2T p2
    let m2 ← H.op1 (sum [0]) m2
    H.op2 (fun a b => stack [a, b]) m1 m2
  else H.throw .assertionError

/-- `get_noncentral_moment` (base.py:233-282). -/
def getNoncentralMoment (s : HSelf) (w : PyStr) (j : ℕ) (mu : Ptr) (lw : Bool) : H Ptr :=
  if (Component.headVar w).length = 1 then
    match s.ncmHC w with
    | some f => f j mu lw
    | none => momentDefault s w j mu lw
  else H.throw .assertionError

/-- The centre used by `get_central_moment` (base.py:302-309). -/
def centre (s : HSelf) (w : PyStr) (lw : Bool) : H Ptr :=
  if Component.headVar w ∈ [['t'], ['v'], ['z']] then getMean s w lw
  else if Component.headVar w = ['x'] then do
    let m ← getMean s w lw
    let mus ← unpack2 m
    H.op2 (fun a b => stack [a, b]) mus.1 mus.2
  else H.throw .assertionError

/-- `get_central_moment` (base.py:284-315). -/
def getCentralMoment (s : HSelf) (w : PyStr) (j : ℕ) (lw : Bool) : H Ptr :=
  if (Component.headVar w).length = 1 then do
    let mu ← centre s w lw
    if '_' ∈ w then do
      let b ← H.lift (Component.condVars w)
      let _dc ← s.cube.constructVolumeElement b
      getNoncentralMoment s w j mu lw
    else getNoncentralMoment s w j mu lw
  else H.throw .assertionError

/-- The object seen by the derived methods. -/
def obj (s : HSelf) : HObj where
  cube := s.cube
  getP := getP s
  getMean := getMean s
  getCentralMoment := getCentralMoment s

end HComp

namespace HObj

/-- `get_variance` (base.py:317-333). -/
def getVariance (o : HObj) (w : PyStr) (lw : Bool) : H Ptr := o.getCentralMoment w 2 lw

/-- `get_dispersion` (base.py:335-352). -/
def getDispersion (o : HObj) (w : PyStr) (lw : Bool) : H Ptr := do
  let v ← o.getCentralMoment w 2 lw
  H.map Num.sqrt v

/-- `get_normalised_central_moment` (base.py:354-377). -/
def getNormalisedCentralMoment (o : HObj) (w : PyStr) (j : ℕ) (lw : Bool) : H Ptr := do
  let c ← o.getCentralMoment w j lw
  let d ← o.getDispersion w lw
  let dj ← H.map (fun x => x.npow j) d
  H.op2 div c dj

/-- `get_excess_central_moment` (base.py:386-392). -/
def getExcessCentralMoment (f2 : ℝ) (o : HObj) (w : PyStr) (j : ℕ) (lw : Bool) : H Ptr := do
  let c ← o.getNormalisedCentralMoment w j lw
  H.op1 (fun a => sub a (scalar (.fin (Obj.normalisedCentralMomentNormal f2 j)))) c

/-- The mean and bin centres of one dependent variable in `get_covariance` (base.py:493-504). -/
def covVar (o : HObj) (w : PyStr) (dvar : Char) (lw : Bool) : H (Ptr × List Ptr) := do
  let m ← o.getMean w lw
  if dvar ≠ 'x' then do
    let v ← o.cube.getVariableValues [dvar]
    pure (m, [v])
  else do
    let x1 ← o.cube.getVariableValues ['x','1']
    let x2 ← o.cube.getVariableValues ['x','2']
    pure (m, [x1, x2])

/-- `(values - mean[na].T).T` (base.py:506-507, 514-516). -/
def delta (val mu : Ptr) : H Ptr := do
  let m ← H.getitem [.na] mu
  let mT ← H.T m
  let d ← H.op2 sub val mT
  H.T d

/-- `p * d0[..] * d1[..]` summed over the first two axes (base.py:508-509, 518-523). -/
def covSum (p d0 d1 : Ptr) (ix0 ix1 : List Ix) : H Ptr := do
  let e0 ← H.getitem ix0 d0
  let q ← H.op2 mul p e0
  let e1 ← H.getitem ix1 d1
  let q ← H.op2 mul q e1
  H.op1 (sum [0, 1]) q

/-- `means[idx_x][0]`, `means[idx_x][1]` (base.py:514-515). -/
def unpackRows (m : Ptr) : H (Ptr × Ptr) := do
  let a ← H.getitem [.at 0] m
  let b ← H.getitem [.at 1] m
  pure (a, b)

/-- The covariance with the position (base.py:511-523); `k1`, `k2` are the axes summed over to get the two integrands and `ixx`,
`ixn` the index tuples of position and other variable. -/
def covX (p m vx1 vx2 mn vn : Ptr) (k1 k2 : ℤ) (ixx ixn : List Ix) : H Ptr := do
  let ms ← unpackRows m
  let dx1 ← delta vx1 ms.1
  let dx2 ← delta vx2 ms.2
  let dn ← delta vn mn
  let p1 ← H.op1 (sum [k1]) p
  let c1 ← covSum p1 dx1 dn ixx ixn
  let p2 ← H.op1 (sum [k2]) p
  let c2 ← covSum p2 dx2 dn ixx ixn
  H.op2 (fun a b => stack [a, b]) c1 c2

/-- `get_covariance` after the distribution string has been taken apart (base.py:489-523). -/
def covCore (o : HObj) (w : PyStr) (a0 a1 : Char) (w0 w1 : PyStr) (lw : Bool) : H Ptr := do
  let mv0 ← covVar o w0 a0 lw
  let mv1 ← covVar o w1 a1 lw
  let p ← o.getP w false lw
  match mv0.2, mv1.2 with
  | [v0], [v1] => do
    let d0 ← delta v0 mv0.1
    let d1 ← delta v1 mv1.1
    covSum p d0 d1 [.all, .na] [.na, .all]
  | [x1, x2], v1 :: _ => covX p mv0.1 x1 x2 mv1.1 v1 1 0 [.all, .na] [.na, .all]
  | v0 :: _, [x1, x2] => covX p mv1.1 x1 x2 mv0.1 v0 2 1 [.na, .all] [.all, .na]
  | _, _ => H.throw .valueError

/-- `get_covariance` (base.py:454-523). -/
def getCovariance (o : HObj) (w : PyStr) (lw : Bool) : H Ptr :=
  if '_' ∈ w then
    match PyStr.split '_' w with
    | [dep, cond] => match dep with
      | [a0, a1] => covCore o w a0 a1 (a0 :: '_' :: cond) (a1 :: '_' :: cond) lw
      | _ => H.throw .valueError
    | _ => H.throw .valueError
  else match w with
    | [a0, a1] => covCore o w a0 a1 [a0] [a1] lw
    | _ => H.throw .valueError

/-- `covariance / (variance0 * variance1) ** 0.5` (base.py:548-557). -/
def corCore (o : HObj) (w w0 w1 : PyStr) (lw : Bool) : H Ptr := do
  let c ← o.getCovariance w lw
  let v0 ← o.getVariance w0 lw
  let v1 ← o.getVariance w1 lw
  let v ← H.op2 mul v0 v1
  let r ← H.map Num.sqrt v
  H.op2 div c r

/-- `get_correlation` (base.py:525-558). -/
def getCorrelation (o : HObj) (w : PyStr) (lw : Bool) : H Ptr :=
  if '_' ∈ w then
    match PyStr.split '_' w with
    | [dep, cond] => match dep with
      | [a0, a1] => corCore o w (a0 :: '_' :: cond) (a1 :: '_' :: cond) lw
      | _ => H.throw .valueError
    | _ => H.throw .valueError
  else match w with
    | [a0, a1] => corCore o w [a0] [a1] lw
    | _ => H.throw .valueError

/-- `initial_zero` of `get_l_moment` (base.py:589-593). -/
def lZero (o : HObj) : Option PyStr → H Ptr
  | none => H.new (.ok (full [1] (.fin 0)))
  | some b => do
    let s ← o.cube.getDistributionShape b
    H.new (.ok (full (1 :: s) (.fin 0)))

/-- `get_l_moment` (base.py:560-602). -/
def getLMoment (o : HObj) (w : PyStr) (j : ℤ) (lw : Bool) : H Ptr :=
  if (Component.headVar w).length = 1 then do
    let cond ← H.lift (if w.length = 1 then .ok none else (Component.condVars w).map some : Py (Option PyStr))
    let F ← o.getP w false lw
    let F ← H.op1 (fun a => .ok (cumsum0 a)) F
    let zero ← lZero o cond
    let F ← H.op2 concat0 zero F
    let F1 ← H.getitem [.sl 1 none] F
    let F0 ← H.getitem [.sl 0 (some (-1))] F
    let dF ← H.op2 sub F1 F0
    if j - 1 < 0 then H.throw .valueError else do
    let g ← H.map (fun f => Obj.polyNum (Obj.legendre (j - 1).toNat) (.fin 2 * f - .fin 1)) F
    let x ← o.cube.getVariableEdges (Component.headVar w)
    let gT ← H.T g
    let y ← H.op2 mul x gT
    let y ← H.T y
    let y0 ← H.getitem [.sl 0 (some (-1))] y
    let y1 ← H.getitem [.sl 1 none] y
    let q ← H.op2 add y0 y1
    let q ← H.map (fun d => d / .fin 2) q
    let q ← H.op2 mul q dF
    H.op1 (sum [0]) q
  else H.throw .assertionError

/-- `get_normalised_l_moment` (base.py:646-671), with `get_l_dispersion` (625-644). -/
def getNormalisedLMoment (o : HObj) (w : PyStr) (j : ℤ) (lw : Bool) : H Ptr := do
  let d ← o.getLMoment w 2 lw
  let l ← o.getLMoment w j lw
  H.op2 div l d

/-- `get_excess_l_moment` (base.py:710-733). -/
def getExcessLMoment (ppf : ℝ → ℝ) (o : HObj) (w : PyStr) (j : ℤ) (lw : Bool) : H Ptr := do
  let l ← o.getNormalisedLMoment w j lw
  let n ← H.lift (Obj.normalisedLMomentNormal ppf j)
  H.op1 (fun a => sub a (scalar n)) l

end HObj
end PKM
