import Verif.Component

/-!
Model of components written by users: subclasses of `Component` that override some of its methods.

The 15 methods `_get_log_p_*` of `Component` call `self._get_log_p_tvxz(density=False, light_weighted=light_weighted)`, which is looked up
on the object: a subclass that overrides `_get_log_p_tvxz` changes all of them.
-/

noncomputable section

namespace PKM
open Np

/-- The methods defined by a subclass: `_get_log_p_*`, and the hooks `get_mean_*` and `get_noncentral_moment_*` that `get_mean` and
`get_noncentral_moment` look up by name (base.py:126, 154, 227-231, 277-282). -/
structure Overrides where
  logP : PyStr → Option (Bool → Bool → Py (Arr Num))
  mean : PyStr → Option (Bool → Py (Arr Num))
  ncm : PyStr → Option (ℕ → Arr Num → Bool → Py (Arr Num))

namespace Component

/-- The pattern shared by the marginals (base.py:884-1174), with `joint` for `self._get_log_p_tvxz`. -/
def margOf (joint : Bool → Bool → Py (Arr Num)) (axes : List ℤ) (vol : Py (Arr Num)) (density lw : Bool) : Py (Arr Num) := do
  let lp ← joint false lw
  let r ← logsumexp axes lp
  if density then do
    let d ← vol
    isub r (map Num.log d)
  else .ok r

/-- The inherited methods `_get_log_p_*` (base.py:884-1174, lines of each as for `baseLogP`), with `joint` for `self._get_log_p_tvxz`. -/
def inheritedLogP (cube : IFUCube) (joint : Bool → Bool → Py (Arr Num)) (w : PyStr) : Option (Bool → Bool → Py (Arr Num)) :=
  let m (axes : List ℤ) := some (margOf joint axes (cube.constructVolumeElement w))
  if w = ['t'] then some (margOf joint [1, 2, 3, 4] (.ok cube.ssps.deltaT))
  else if w = ['t','v'] then m [2, 3, 4]
  else if w = ['t','x'] then m [1, 4]
  else if w = ['t','z'] then m [1, 2, 3]
  else if w = ['t','v','x'] then m [4]
  else if w = ['t','v','z'] then m [2, 3]
  else if w = ['t','x','z'] then m [1]
  else if w = ['t','v','x','z'] then some joint
  else if w = ['v'] then m [0, 2, 3, 4]
  else if w = ['v','x'] then m [0, 4]
  else if w = ['v','z'] then m [0, 2, 3]
  else if w = ['v','x','z'] then m [0]
  else if w = ['x'] then m [0, 1, 4]
  else if w = ['x','z'] then m [0, 1]
  else if w = ['z'] then m [0, 1, 2, 3]
  else none

/-- An object of a subclass of `Component` (base.py:10-31) with the methods `own` and the array `stored` in `log_p_tvxz`: methods are
looked up in the subclass first. -/
def subSelf (cube : IFUCube) (stored : Arr Num) (own : Overrides) : Self where
  cube := cube
  logP w := match own.logP w with
    | some f => some f
    | none => inheritedLogP cube ((own.logP ['t','v','x','z']).getD (logPtvxz cube stored)) w
  meanHC := own.mean
  ncmHC := own.ncm

/-- Without methods of its own it is a plain component. -/
theorem subSelf_plain (cube : IFUCube) (stored : Arr Num) :
    subSelf cube stored ⟨fun _ => none, fun _ => none, fun _ => none⟩ = baseSelf cube stored := rfl

end Component
end PKM
