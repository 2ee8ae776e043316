import Verif.Parametric

/-!
# The methods `get_central_moment_v*` of parametric components

`get_central_moment` (base.py) does not call them; users can. Four of them have a positional parameter
`mu` without a default, which they do not use: `mu = none` is a call without it.
-/

noncomputable section

namespace PKM
open Np

namespace Param

/-- A method called without a positional argument it requires raises `TypeError`. -/
def required (mu : Option (Arr Num)) : Py Unit :=
  match mu with
  | some _ => .ok ()
  | none => .error .typeError

/-- A method called with one positional argument too many (`light_weighted` passed by keyword) raises `TypeError`. -/
def surplus (mu : Option (Arr Num)) : Py Unit :=
  match mu with
  | some _ => .error .typeError
  | none => .ok ()

/-- `get_central_moment_v_x` (parametric.py:860-876). -/
def centralVx (p : Param) (j : ℕ) (lw : Bool) : Py (Arr Num) := do
  let e ← p.meanVx lw
  p.ncmVx j e lw

/-- `get_central_moment_v_t` (parametric.py:902-919). -/
def centralVt (p : Param) (j : ℕ) (lw : Bool) : Py (Arr Num) := do
  let e ← p.meanVt lw
  p.ncmVt j e lw

/-- `get_central_moment_v` (parametric.py:942-958). -/
def centralV (p : Param) (j : ℕ) (mu : Option (Arr Num)) (lw : Bool) : Py (Arr Num) := do
  required mu
  let e ← p.meanV lw
  p.ncmV j e lw

/-- `get_central_moment_v_tz` (parametric.py:1030-1048). -/
def centralVtz (p : Param) (j : ℕ) (mu : Option (Arr Num)) (lw : Bool) : Py (Arr Num) := do
  required mu
  let e ← p.meanVtz lw
  p.ncmVtz j e lw

/-- `get_central_moment_v_xz` (parametric.py:1072-1090). -/
def centralVxz (p : Param) (j : ℕ) (mu : Option (Arr Num)) (lw : Bool) : Py (Arr Num) := do
  required mu
  let e ← p.meanVxz lw
  p.ncmVxz j e lw

/-- `get_central_moment_v_z` (parametric.py:1115-1131). -/
def centralVz (p : Param) (j : ℕ) (mu : Option (Arr Num)) (lw : Bool) : Py (Arr Num) := do
  required mu
  let e ← p.meanVz lw
  p.ncmVz j e lw

/-- The methods looked up by name: `component.get_central_moment_<w>(j, [mu,] light_weighted=lw)`; `none` if there is
no such method. -/
def centralMethod (p : Param) (w : PyStr) : Option (ℕ → Option (Arr Num) → Bool → Py (Arr Num)) :=
  if w = ['v','_','t','x'] then some fun j mu _ => do surplus mu; p.centralVtx j
  else if w = ['v','_','t','x','z'] then some fun j mu _ => do surplus mu; p.centralVtxz j
  else if w = ['v','_','x'] then some fun j mu lw => do surplus mu; p.centralVx j lw
  else if w = ['v','_','t'] then some fun j mu lw => do surplus mu; p.centralVt j lw
  else if w = ['v'] then some p.centralV
  else if w = ['v','_','t','z'] then some p.centralVtz
  else if w = ['v','_','x','z'] then some p.centralVxz
  else if w = ['v','_','z'] then some p.centralVz
  else none

end Param
end PKM
