import Verif.Cube

/-!
# Model of `components.base.Component`: probability functions and moments

The methods are written once for an abstract `self` (`Self`): the tables `logP`, `meanHC`, `ncmHC`
model Python attribute lookup by name, so that the same code serves `Component`,
`ParametricComponent` and (partly) `Mixture`.  A flag pair `(density, lw)` stands for the keyword
arguments `density` and `light_weighted`.
-/

open scoped Classical

noncomputable section

namespace PKM
open Np

/-- What the methods of `Component` read from `self`. -/
structure Self where
  /-- `self.cube` (base.py:24) -/
  cube : IFUCube
  /-- `getattr(self, "_get_log_p_" + w)` (base.py:126,155); `none` = no such attribute. -/
  logP : PyStr → Option (Bool → Bool → Py (Arr Num))
  /-- `getattr(self, "get_mean_" + w)` if it exists (base.py:227-229). -/
  meanHC : PyStr → Option (Bool → Py (Arr Num))
  /-- `getattr(self, "get_noncentral_moment_" + w)` if it exists (base.py:277-280). -/
  ncmHC : PyStr → Option (ℕ → Arr Num → Bool → Py (Arr Num))

namespace Component

/-- `_get_log_marginal_distribution` (base.py:106-128): `getattr` fails with `AttributeError`. -/
def getLogMarginal (s : Self) (w : PyStr) (density lw : Bool) : Py (Arr Num) :=
  match s.logP w with
  | some f => f density lw
  | none => .error .attributeError

/-- Positions of the marginal's axes in the joint (base.py:169). -/
def oldPos (joint marginal : PyStr) : List ℤ := marginal.map (fun m => PyStr.find m joint)

/-- `[-(i + 1) for i in range(n)][::-1]` (base.py:172). -/
def newPos (n : ℕ) : List ℤ := ((List.range n).map (fun i : ℕ => (-((i : ℤ) + 1)))).reverse

/-- The `except` branch of `_get_log_conditional_distribution` (base.py:158-176): joint/marginal.
The calls `self.get_log_p(joint)`, `self.get_log_p(marginal)` are resolved to the marginal branch
because `joint` and `marginal` are pieces of a `split("_")` and contain no underscore. -/
def condFromJoint (s : Self) (w dist marginal : PyStr) (density lw : Bool) : Py (Arr Num) := do
  let joint := PyStr.sorted (dist ++ marginal)
  let logPJoint ← getLogMarginal s joint false lw
  let logPMarginal ← getLogMarginal s marginal false lw
  let joint := PyStr.replaceX joint
  let marginal := PyStr.replaceX marginal
  let logPJoint ← moveaxis (oldPos joint marginal) (newPos marginal.length) logPJoint
  let logPCond ← sub logPJoint logPMarginal
  if density then do
    let dvol ← s.cube.constructVolumeElement w
    sub logPCond (map Num.log dvol)
  else .ok logPCond

/-- `_get_log_conditional_distribution` (base.py:130-177). `try: hard-coded method except
(AttributeError, NotImplementedError): joint/marginal`. Unpacking `split("_")` into two names
raises `ValueError` unless there are exactly two pieces. -/
def getLogConditional (s : Self) (w : PyStr) (density lw : Bool) : Py (Arr Num) :=
  if '_' ∈ w then
    match PyStr.split '_' w with
    | [dist, marginal] =>
      match getLogMarginal s w density lw with
      | .ok r => .ok r
      | .error .attributeError => condFromJoint s w dist marginal density lw
      | .error .notImplementedError => condFromJoint s w dist marginal density lw
      | .error e => .error e
    | _ => .error .valueError
  else .error .assertionError

/-- `get_log_p` (base.py:67-104). -/
def getLogP (s : Self) (w : PyStr) (density lw : Bool) : Py (Arr Num) :=
  if '_' ∈ w then getLogConditional s w density lw else getLogMarginal s w density lw

/-- `get_p` (base.py:33-65). -/
def getP (s : Self) (w : PyStr) (density lw : Bool) : Py (Arr Num) := do
  let logP ← getLogP s w density lw
  .ok (map Num.exp logP)

/-! ### The concrete base component -/

/-- `Component.__init__` (base.py:23-31): the array is accepted iff its shape is the cube's. -/
def init (cube : IFUCube) (logPtvxz : Arr Num) : Py (Arr Num) := do
  let shape ← cube.getDistributionShape ['t','v','x','z']
  if logPtvxz.shape = shape then .ok logPtvxz else .error .valueError

/-- The light-weighting step of `_get_log_p_tvxz` (base.py:1035-1039). -/
def applyLight (cube : IFUCube) (logP : Arr Num) : Py (Arr Num) := do
  let l ← getitem [.all, .na, .na, .na, .all] cube.ssps.lightWeights
  let logP ← iadd logP (map Num.log l)
  isub logP (logsumexpAll logP)

/-- `_get_log_p_tvxz` (base.py:1017-1041). `copy.copy` makes the in-place updates act on a fresh
array, so the stored one is only read. -/
def logPtvxz (cube : IFUCube) (stored : Arr Num) (density lw : Bool) : Py (Arr Num) := do
  let dvol ← cube.constructVolumeElement ['t','v','x','z']
  let logDtvxz := map Num.log dvol
  let logP ← iadd stored logDtvxz
  let logP ← (if lw then applyLight cube logP else .ok logP : Py (Arr Num))
  if density then isub logP logDtvxz else .ok logP

/-- The pattern shared by the marginals (base.py:884-1174): log-sum-exp of the probability-weighted
joint over the other axes, then division by the volume element if a density is requested. -/
def logPmarg (cube : IFUCube) (stored : Arr Num) (axes : List ℤ) (vol : Py (Arr Num))
    (density lw : Bool) : Py (Arr Num) := do
  let lp ← logPtvxz cube stored false lw
  let r ← logsumexp axes lp
  if density then do
    let d ← vol
    isub r (map Num.log d)
  else .ok r

/-- The methods `_get_log_p_*` of `Component`, looked up by name. Lines of base.py:
t 884-901, tv 903-920, tx 922-939, tz 941-958, tvx 960-977, tvz 979-996, txz 998-1015,
tvxz 1017-1041, v 1043-1060, vx 1062-1079, vz 1081-1098, vxz 1100-1117, x 1119-1136,
xz 1138-1155, z 1157-1174. -/
def baseLogP (cube : IFUCube) (stored : Arr Num) (w : PyStr) :
    Option (Bool → Bool → Py (Arr Num)) :=
  let m (axes : List ℤ) := some (logPmarg cube stored axes (cube.constructVolumeElement w))
  if w = ['t'] then some (logPmarg cube stored [1, 2, 3, 4] (.ok cube.ssps.deltaT))
  else if w = ['t','v'] then m [2, 3, 4]
  else if w = ['t','x'] then m [1, 4]
  else if w = ['t','z'] then m [1, 2, 3]
  else if w = ['t','v','x'] then m [4]
  else if w = ['t','v','z'] then m [2, 3]
  else if w = ['t','x','z'] then m [1]
  else if w = ['t','v','x','z'] then some (logPtvxz cube stored)
  else if w = ['v'] then m [0, 2, 3, 4]
  else if w = ['v','x'] then m [0, 4]
  else if w = ['v','z'] then m [0, 2, 3]
  else if w = ['v','x','z'] then m [0]
  else if w = ['x'] then m [0, 1, 4]
  else if w = ['x','z'] then m [0, 1]
  else if w = ['z'] then m [0, 1, 2, 3]
  else none

/-- A plain `Component` (also `FromParticle`): no hard-coded conditionals, means or moments. -/
def baseSelf (cube : IFUCube) (stored : Arr Num) : Self where
  cube := cube
  logP := baseLogP cube stored
  meanHC := fun _ => none
  ncmHC := fun _ => none

end Component
end PKM
