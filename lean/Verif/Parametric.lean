import Verif.Moments
import Verif.Scipy
import Mathlib.Analysis.SpecialFunctions.Log.Base

/-!
# Model of `components.parametric.ParametricComponent`

Attributes that are set by `set_p_t`, `set_p_x_t`, `set_t_dep`, `set_mu_v`, `set_sig_v` are `Option`s:
reading one that is not set raises `AttributeError`.
-/

open scoped Classical

noncomputable section

namespace PKM
open Np

/-- `self.t_pars` (parametric.py:112-119), the entries that are read. -/
structure TPars where
  tStart : Num
  tEnd : Num
  deltaT : Num

/-- `self.z_t_interp_grid` (parametric.py:242): `z[i, k]` is the metallicity of stars in the age bin
`k` for the depletion time `tDep[i]`, `nDep` values of it. -/
structure ZGrid where
  nDep : ℕ
  tDep : ℕ → ℝ
  z : ℕ → ℕ → Num

/-- The attributes of a `ParametricComponent`. `f2` is the version dependent value that
`scipy.special.factorial2(-1)` returns (1 up to scipy 1.10, 0 in some later versions). -/
structure Param where
  cube : IFUCube
  center : ℝ × ℝ
  rotation : ℝ
  xxp : Arr Num
  yyp : Arr Num
  zGrid : ZGrid
  f2 : ℝ
  tPars : Option TPars
  logPt : Option (Arr Num)
  logPxt : Option (Arr Num)
  tDep : Option (Arr Num)
  logPztx : Option (Arr Num)
  muV : Option (Arr Num)
  sigV : Option (Arr Num)

namespace Param

/-- Reading an attribute. -/
def attr {α : Type} : Option α → Py α
  | some a => .ok a
  | none => .error .attributeError

/-! ### Construction -/

/-- Rotated coordinates (parametric.py:39-45): `np.einsum("kl,ijk", rot_matrix, xxyy)` has output
indices in alphabetical order `ijl` and sums over `k`. -/
def rotated (cube : IFUCube) (center : ℝ × ℝ) (rotation : ℝ) (l : ℕ) : Arr Num :=
  let costh := Real.cos rotation
  let sinth := Real.sin rotation
  let rot : ℕ → ℕ → ℝ := fun k l =>
    if k = 0 then (if l = 0 then costh else sinth) else (if l = 0 then -sinth else costh)
  ⟨[cube.nx, cube.ny], fun i =>
    .fin (rot 0 l) * (cube.x.get [i.getD 0 0] - .fin center.1) +
    .fin (rot 1 l) * (cube.y.get [i.getD 1 0] - .fin center.2)⟩

/-- `ahat` and `bhat` (parametric.py:222-225). -/
def ahat : ℝ := (10 : ℝ) ^ (-0.689 : ℝ)
def bhat : ℝ := 1.899 - 1.0
/-- `z_max` (parametric.py:226-228). -/
def zMax : ℝ := ahat ^ (-1.0 / bhat) * 0.9999

/-- Entry of `np.logspace(log10(lo), log10(hi), n)` (parametric.py:230-231). -/
def logspace (lo hi : ℝ) (n i : ℕ) : ℝ :=
  (10 : ℝ) ^ (Real.logb 10 lo + i * ((Real.logb 10 hi - Real.logb 10 lo) / (n - 1 : ℝ)))

/-- Entry of `np.linspace(z_max, 0, n_z)` (parametric.py:232-233; the extra positional argument
`n_z` is `endpoint` and truthy). -/
def zTab (nz k : ℕ) : ℝ := zMax + k * ((0 - zMax) / (nz - 1 : ℝ))

/-- Age at which gas reaches metallicity `z` with depletion time `tDep` (parametric.py:235). -/
def ageAt (tH tDep z : ℝ) : ℝ := tH - tDep * z / (1 - ahat * z ^ bhat)

/-- Last index `k < n` with `xs k <= x`, or 0. -/
def lastLe (xs : ℕ → ℝ) (x : ℝ) : ℕ → ℕ
  | 0 => 0
  | n + 1 => if xs n ≤ x then n else lastLe xs x n

/-- `np.interp(x, xs, ys)` for one `x` and tables of length `n`: linear between tabulated points,
constant outside. -/
def interp (n : ℕ) (xs ys : ℕ → ℝ) (x : ℝ) : ℝ :=
  if x ≤ xs 0 then ys 0
  else if xs (n - 1) ≤ x then ys (n - 1)
  else
    let k := lastLe xs x n
    ys k + (ys (k + 1) - ys k) / (xs (k + 1) - xs k) * (x - xs k)

/-- `get_z_interpolation_grid` (parametric.py:213-242). -/
def zInterpGrid (cube : IFUCube) (lo hi : ℝ) (nDep nz : ℕ) : Py ZGrid := do
  let tH ← getitem [.at (-1)] cube.ssps.tEdges
  let tSsps := cube.ssps.tCents
  .ok { nDep := nDep, tDep := logspace lo hi nDep,
        z := fun i k => match tH.get [], tSsps.get [k] with
          | .fin h, .fin t =>
            .fin (interp nz (fun m => ageAt h (logspace lo hi nDep i) (zTab nz m)) (zTab nz) t)
          | _, _ => .nan }

/-- `ParametricComponent.__init__` (parametric.py:35-46). -/
def init (f2 : ℝ) (cube : IFUCube) (center : ℝ × ℝ) (rotation : ℝ) : Py Param := do
  let zg ← zInterpGrid cube 0.1 10.0 1000 1000
  .ok { cube := cube, center := center, rotation := rotation,
        xxp := rotated cube center rotation 0, yyp := rotated cube center rotation 1,
        zGrid := zg, f2 := f2, tPars := none, logPt := none, logPxt := none, tDep := none,
        logPztx := none, muV := none, sigV := none }

/-! ### Star formation history -/

/-- `get_beta_a_b_from_lmd_phi` (parametric.py:48-61). -/
def betaAB (lmd phi : ℝ) : ℝ × ℝ := (lmd * phi, lmd * (1.0 - phi))

/-- `set_p_t` (parametric.py:83-126); returns the updated component. `idx_start_end` (line 110) and
`self.p_t` (line 126) are never read and left out. -/
def setPt (p : Param) (lmd phi : ℝ) (cdfStartEnd : ℝ × ℝ) : Py Param :=
  let (a, b) := betaAB lmd phi
  if (if a > 1.0 then 1 else 0) + (if b > 1 then 1 else 0) < 1 then .error .valueError
  else do
    let edges := p.cube.ssps.tEdges
    let e0 ← getitem [.at 0] edges
    let e1 ← getitem [.at (-1)] edges
    let loc := e0.get []
    let scale := e1.get [] - e0.get []
    let tStart := betaPpfNum a b loc scale cdfStartEnd.1
    let tEnd := betaPpfNum a b loc scale cdfStartEnd.2
    let logCdf := map (betaLogcdf a b loc scale) edges
    let hi ← getitem [.sl 1 none] logCdf
    let lo ← getitem [.sl 0 (some (-1))] logCdf
    let tmp ← logDiff hi lo
    let dt ← p.cube.constructVolumeElement ['t']
    let logPt ← sub tmp (map Num.log dt)
    .ok { p with tPars := some ⟨tStart, tEnd, tEnd - tStart⟩, logPt := some logPt }

/-- `linear_interpolate_t` (parametric.py:63-81). -/
def linearInterpolateT (p : Param) (fEnd fStart : ℝ) : Py (Arr Num) := do
  let tp ← attr p.tPars
  .ok (map (fun t =>
    let f := Num.fin fEnd + Num.fin (fStart - fEnd) / tp.deltaT * (t - tp.tStart)
    let f := if t.lt tp.tStart then .fin fEnd else f
    if tp.tEnd.lt t then .fin fStart else f) p.cube.ssps.tCents)

/-! ### Enrichment -/

/-- `np.argmin(f)` over `n` entries: the first index of the least one. -/
def argmin (n : ℕ) (f : ℕ → ℝ) : ℕ := sInf {i | i < n ∧ ∀ j < n, f i ≤ f j}

/-- `|t_dep - grid|` is nan when `t_dep` is, and `argmin` of nans is 0 (parametric.py:262-264). -/
def nearest (g : ZGrid) (t : Num) : ℕ :=
  match t with
  | .fin t => argmin g.nDep (fun i => |t - g.tDep i|)
  | _ => 0

/-- `ahat * z ** bhat`, then `** 0.5` (parametric.py:268, 272). -/
def zSig : Num → Num
  | .fin z => Num.sqrt (if 0 ≤ z then .fin (ahat * z ^ bhat) else .nan)
  | _ => .nan

/-- `10 ** z` (parametric.py:271). -/
def pow10 : Num → Num
  | .fin z => .fin ((10 : ℝ) ^ z)
  | .pinf => .pinf
  | .ninf => .fin 0
  | .nan => .nan

/-- `evaluate_chemical_enrichment_model_base` (parametric.py:254-281), first result; the second is its
exponential. The table look-up, `reshape` and `moveaxis` of lines 265-267 are written as one array
`z_mu[t, x, y] = z_grid[idx[x, y], t]`; `IndexError`/`ValueError` for fields of another shape. -/
def enrichmentBase (p : Param) (tDep : Arr Num) : Py (Arr Num) := do
  if tDep.shape ≠ [p.cube.nx, p.cube.ny] then Except.error PyErr.valueError
  let nt ← IFUCube.pyLen p.cube.ssps.tCents
  let zMu : Arr Num := ⟨[nt, p.cube.nx, p.cube.ny], fun i =>
    p.zGrid.z (nearest p.zGrid (tDep.get [i.getD 1 0, i.getD 2 0])) (i.getD 0 0)⟩
  let zEdg ← getitem [.all, .na, .na, .na] (map pow10 p.cube.ssps.zEdges)
  let logCdf ← normLogcdf zMu (map zSig zMu) zEdg
  let hi ← getitem [.sl 1 none] logCdf
  let lo ← getitem [.sl 0 (some (-1))] logCdf
  let tmp ← logDiff hi lo
  let dz ← p.cube.constructVolumeElement ['z']
  let w ← add (T tmp) (map Num.log dz)
  let logNorm ← logsumexp [-1] w
  sub tmp (T logNorm)

/-- `set_p_z_tx` (parametric.py:283-293), called at the end of `set_t_dep`. -/
def setPztx (p : Param) : Py Param := do
  let t ← attr p.tDep
  let r ← enrichmentBase p t
  .ok { p with logPztx := some r }

/-- `evaluate_chemical_enrichment_model` (parametric.py:295-307). -/
def enrichment (p : Param) (tDep : ℝ) : Py (Arr Num) := do
  let r ← enrichmentBase p (full [p.cube.nx, p.cube.ny] (.fin tDep))
  getitem [.all, .all, .at 0, .at 0] (map Num.exp r)

/-! ### Distributions

In `_get_log_p_*` the mass-weighted and the light-weighted versions call each other; the definitions
are ordered accordingly. All in-place updates act on arrays made by the method or its callee. -/

/-- `np.log(self.cube.dx) + np.log(self.cube.dy)`. -/
def logDxDy (p : Param) : Arr Num := scalar (Num.log p.cube.dx + Num.log p.cube.dy)

/-- `np.log(self.cube.construct_volume_element(w))`. -/
def logVol (p : Param) (w : PyStr) : Py (Arr Num) := do
  let d ← p.cube.constructVolumeElement w
  .ok (map Num.log d)

/-- `if density: a op= b`. -/
def onlyIf (c : Bool) (f : Arr Num → Py (Arr Num)) (a : Arr Num) : Py (Arr Num) :=
  if c then f a else .ok a

/-- `(a.T + log_dvol).T`. -/
def addT (a b : Arr Num) : Py (Arr Num) := do
  let r ← add (T a) b
  .ok (T r)

/-- `_get_log_p_x_t`, mass weighted (parametric.py:151-152, 160-162). -/
def xtMass (p : Param) (density : Bool) : Py (Arr Num) := do
  let a ← attr p.logPxt
  onlyIf (!density) (fun a => iadd a p.logDxDy) a

/-- `_get_log_p_t`, mass weighted (parametric.py:422-423, 428-430). -/
def tMass (p : Param) (density : Bool) : Py (Arr Num) := do
  let a ← attr p.logPt
  onlyIf (!density) (fun a => do let d ← p.logVol ['t']; iadd a d) a

/-- `_get_log_p_v_tx`, mass weighted (parametric.py:193-200, 208-211). -/
def vtxMass (p : Param) (density : Bool) : Py (Arr Num) := do
  let vEdg ← getitem [.all, .na, .na, .na] p.cube.vEdg
  let mu ← attr p.muV
  let sig ← attr p.sigV
  let lo ← getitem [.sl 0 (some (-1))] vEdg
  let cdf0 ← normLogcdf mu sig lo
  let hi ← getitem [.sl 1 none] vEdg
  let cdf1 ← normLogcdf mu sig hi
  let r ← logDiff cdf1 cdf0
  onlyIf density (fun r => do
    let d ← p.logVol ['v']
    let q ← sub (T r) d
    .ok (T q)) r

/-- `_get_log_p_z_tx`, mass weighted (parametric.py:322-323, 330-333). -/
def ztxMass (p : Param) (density : Bool) : Py (Arr Num) := do
  let a ← attr p.logPztx
  onlyIf (!density) (fun a => do let d ← p.logVol ['z']; addT a d) a

/-- `_get_log_p_tx`, mass weighted (parametric.py:464-468). -/
def txMass (p : Param) (density : Bool) : Py (Arr Num) := do
  let a ← p.xtMass density
  let b ← p.tMass density
  let r ← add a b
  moveaxis [-1] [0] r

/-- `_get_log_p_txz`, mass weighted (parametric.py:554-557). -/
def txzMass (p : Param) (density : Bool) : Py (Arr Num) := do
  let a ← p.txMass density
  let b ← p.ztxMass density
  let a ← getitem [.all, .all, .all, .na] a
  let b ← moveaxis [0] [-1] b
  add a b

/-- `_get_log_p_txz` (parametric.py:541-567). -/
def txz (p : Param) (density lw : Bool) : Py (Arr Num) := do
  let r ← p.txzMass density
  if lw then do
    let m ← p.txzMass false
    let l ← getitem [.all, .na, .na, .all] p.cube.ssps.lightWeights
    let l := map Num.log l
    let ml ← add m l
    let r ← add r l
    sub r (logsumexpAll ml)
  else .ok r

/-- `_get_log_p_tvxz`, mass weighted (parametric.py:582-586). -/
def tvxzMass (p : Param) (density : Bool) : Py (Arr Num) := do
  let a ← p.txzMass density
  let v ← p.vtxMass density
  let v ← getitem [.all, .all, .all, .all, .na] v
  let v ← moveaxis [0] [1] v
  let a ← getitem [.all, .na, .all, .all, .all] a
  add v a

/-- `_get_log_p_tvxz` (parametric.py:569-596). -/
def tvxz (p : Param) (density lw : Bool) : Py (Arr Num) := do
  let r ← p.tvxzMass density
  if lw then do
    let m ← p.tvxzMass false
    let l ← getitem [.all, .na, .na, .na, .all] p.cube.ssps.lightWeights
    let l := map Num.log l
    let ml ← add m l
    let r ← add r l
    sub r (logsumexpAll ml)
  else .ok r

/-- `_get_log_p_tz` (parametric.py:476-493). -/
def tz (p : Param) (density lw : Bool) : Py (Arr Num) := do
  let a ← p.txz density lw
  let a ← onlyIf density (fun a => iadd a p.logDxDy) a
  logsumexp [1, 2] a

/-- `_get_log_p_t` (parametric.py:409-430). -/
def t (p : Param) (density lw : Bool) : Py (Arr Num) :=
  if lw then do
    let a ← p.tz true true
    let dz ← p.logVol ['z']
    let a ← add a dz
    let r ← logsumexp [1] a
    onlyIf (!density) (fun a => do let d ← p.logVol ['t']; iadd a d) r
  else p.tMass density

/-- `_get_log_p_tx` (parametric.py:451-474). -/
def tx (p : Param) (density lw : Bool) : Py (Arr Num) :=
  if lw then do
    let a ← p.txz density true
    let a ← onlyIf density (fun a => do let d ← p.logVol ['z']; iadd a d) a
    logsumexp [-1] a
  else p.txMass density

/-- `_get_log_p_x_t` (parametric.py:138-162). -/
def xt (p : Param) (density lw : Bool) : Py (Arr Num) :=
  if lw then do
    let a ← p.txz true true
    let dz ← p.logVol ['z']
    let a ← add a dz
    let tx ← logsumexp [-1] a
    let t ← p.t true true
    let r ← sub (T tx) t
    let r ← moveaxis [0] [-1] (T r)
    onlyIf (!density) (fun a => iadd a p.logDxDy) r
  else p.xtMass density

/-- `_get_log_p_v_tx` (parametric.py:180-211). -/
def vtx (p : Param) (density lw : Bool) : Py (Arr Num) :=
  if lw then do
    let a ← p.tvxz false true
    let tvx ← logsumexp [-1] a
    let tx ← logsumexp [1] tvx
    let tx ← getitem [.all, .na, .all, .all] tx
    let r ← sub tvx tx
    let r ← moveaxis [0] [1] r
    onlyIf density (fun r => do
      let d ← p.logVol ['v']
      let q ← sub (T r) d
      .ok (T q)) r
  else p.vtxMass density

/-- `_get_log_p_z_tx` (parametric.py:309-333). -/
def ztx (p : Param) (density lw : Bool) : Py (Arr Num) :=
  if lw then do
    let a ← p.txz true true
    let dz ← p.logVol ['z']
    let w ← add a dz
    let tx ← logsumexp [-1] w
    let r ← sub (T a) (T tx)
    let r ← moveaxis [-1] [0] (T r)
    onlyIf (!density) (fun a => do let d ← p.logVol ['z']; addT a d) r
  else p.ztxMass density

/-- `_get_log_p_tvx` (parametric.py:495-518). -/
def tvx (p : Param) (density lw : Bool) : Py (Arr Num) :=
  if lw then do
    let a ← p.tvxz density true
    let a ← onlyIf density (fun a => do let d ← p.logVol ['z']; iadd a d) a
    logsumexp [-1] a
  else do
    let a ← p.txMass density
    let v ← p.vtxMass density
    let a ← getitem [.all, .na, .all, .all] a
    let v ← moveaxis [0] [1] v
    add a v

/-- `_get_log_p_tv` (parametric.py:432-449). -/
def tv (p : Param) (density lw : Bool) : Py (Arr Num) := do
  let a ← p.tvx density lw
  let a ← onlyIf density (fun a => iadd a p.logDxDy) a
  logsumexp [-1, -2] a

/-- `_get_log_p_tvz` (parametric.py:520-539). -/
def tvz (p : Param) (density lw : Bool) : Py (Arr Num) := do
  let a ← p.tvxz density lw
  let a ← onlyIf density (fun a => iadd a p.logDxDy) a
  logsumexp [2, 3] a

/-- `_get_log_p_v` (parametric.py:598-617). -/
def v (p : Param) (density lw : Bool) : Py (Arr Num) := do
  let a ← p.tvx density lw
  let a ← onlyIf density (fun a => do
    let d ← p.logVol ['t']
    let a ← addT a d
    iadd a p.logDxDy) a
  logsumexp [0, 2, 3] a

/-- `_get_log_p_vx` (parametric.py:619-637). -/
def vx (p : Param) (density lw : Bool) : Py (Arr Num) := do
  let a ← p.tvx density lw
  let a ← onlyIf density (fun a => do let d ← p.logVol ['t']; addT a d) a
  logsumexp [0] a

/-- `_get_log_p_vxz` (parametric.py:658-678). -/
def vxz (p : Param) (density lw : Bool) : Py (Arr Num) := do
  let a ← p.tvxz density lw
  let a ← onlyIf density (fun a => do let d ← p.logVol ['t']; addT a d) a
  logsumexp [0] a

/-- `_get_log_p_vz` (parametric.py:639-656). -/
def vz (p : Param) (density lw : Bool) : Py (Arr Num) := do
  let a ← p.vxz density lw
  let a ← onlyIf density (fun a => iadd a p.logDxDy) a
  logsumexp [1, 2] a

/-- `_get_log_p_x` (parametric.py:680-704). -/
def x (p : Param) (density lw : Bool) : Py (Arr Num) :=
  if lw then do
    let a ← p.txz density true
    let a ← onlyIf density (fun a => do
      let d ← p.logVol ['t','z']
      let d ← getitem [.all, .na, .na, .all] d
      iadd a d) a
    logsumexp [0, 3] a
  else do
    let a ← p.xtMass density
    let b ← p.tMass false
    let r ← add a b
    logsumexp [-1] r

/-- `_get_log_p_xz` (parametric.py:706-724). -/
def xz (p : Param) (density lw : Bool) : Py (Arr Num) := do
  let a ← p.txz density lw
  let a ← onlyIf density (fun a => do let d ← p.logVol ['t']; addT a d) a
  logsumexp [0] a

/-- `_get_log_p_z` (parametric.py:726-744). -/
def z (p : Param) (density lw : Bool) : Py (Arr Num) := do
  let a ← p.tz density lw
  let a ← onlyIf density (fun a => do let d ← p.logVol ['t']; addT a d) a
  logsumexp [0] a

/-- The methods `_get_log_p_*`, looked up by name; three of them are conditional. -/
def logP (p : Param) (w : PyStr) : Option (Bool → Bool → Py (Arr Num)) :=
  if w = ['t'] then some p.t
  else if w = ['t','v'] then some p.tv
  else if w = ['t','x'] then some p.tx
  else if w = ['t','z'] then some p.tz
  else if w = ['t','v','x'] then some p.tvx
  else if w = ['t','v','z'] then some p.tvz
  else if w = ['t','x','z'] then some p.txz
  else if w = ['t','v','x','z'] then some p.tvxz
  else if w = ['v'] then some p.v
  else if w = ['v','x'] then some p.vx
  else if w = ['v','z'] then some p.vz
  else if w = ['v','x','z'] then some p.vxz
  else if w = ['x'] then some p.x
  else if w = ['x','z'] then some p.xz
  else if w = ['z'] then some p.z
  else if w = ['x','_','t'] then some p.xt
  else if w = ['v','_','t','x'] then some p.vtx
  else if w = ['z','_','t','x'] then some p.ztx
  else none

/-- `self.get_p(w, density, light_weighted)`: inherited, and it reads only `cube` and the
`_get_log_p_*` methods. -/
def getP (p : Param) (w : PyStr) (density lw : Bool) : Py (Arr Num) :=
  Component.getP ⟨p.cube, p.logP, fun _ => none, fun _ => none⟩ w density lw

/-! ### Velocity moments -/

/-- `special.factorial2(n)` for `n = j - 1`, `j` even. -/
def fact2 (p : Param) (j : ℕ) : ℝ := if j = 0 then p.f2 else (Nat.doubleFactorial (j - 1) : ℝ)

/-- `get_central_moment_v_tx` (parametric.py:746-763). -/
def centralVtx (p : Param) (j : ℕ) : Py (Arr Num) := do
  let s ← attr p.sigV
  if j % 2 = 0 then .ok (map (fun s => s.npow j * .fin (p.fact2 j)) s)
  else .ok (full s.shape (.fin 0))

/-- `np.moveaxis(np.broadcast_to(a, (nz,) + a.shape), 0, -1)` (parametric.py:979-981, 1001-1003,
1187-1189). -/
def spreadZ (p : Param) (a : Arr Num) : Py (Arr Num) := do
  let nz := p.cube.ssps.deltaZ.shape.headD 0
  let a ← broadcastTo (nz :: a.shape) a
  moveaxis [0] [-1] a

/-- `get_central_moment_v_txz` (parametric.py:984-1004). -/
def centralVtxz (p : Param) (j : ℕ) : Py (Arr Num) := do
  let a ← p.centralVtx j
  p.spreadZ a

/-- `get_mean_v_tx` (parametric.py:1133-1140). -/
def meanVtx (p : Param) (_lw : Bool) : Py (Arr Num) := attr p.muV

/-- `get_mean_v_txz` (parametric.py:1179-1190). -/
def meanVtxz (p : Param) (lw : Bool) : Py (Arr Num) := do
  let a ← p.meanVtx lw
  p.spreadZ a

/-- `np.array([f(k0) for k0 in k])` for `k = 0, ..., j`. -/
def tabulate (f : ℕ → Py (Arr Num)) (j : ℕ) : Py (Arr Num) := do
  let l ← (List.range (j + 1)).mapM f
  stack l

/-- `__get_noncentral_moment_v__` (parametric.py:765-815). -/
def momentV (p : Param) (axes : List ℤ) (zIn : Bool) (pInt : Arr Num) (j : ℕ) (mu : Arr Num)
    (lw : Bool) : Py (Arr Num) := do
  let jChooseK : Arr Num := vec (j + 1) (fun k => .fin (Nat.choose j k))
  let e ← (if zIn then p.meanVtxz lw else p.meanVtx lw : Py (Arr Num))
  let jk : Arr ℕ ← broadcastTo (e.shape ++ [j + 1]) (vec (j + 1) (fun k => j - k))
  let delMu ← sub e mu
  let ix := if zIn then [Ix.all, .all, .all, .all, .na] else [Ix.all, .all, .all, .na]
  let delMu ← getitem ix delMu
  let pInt ← getitem ix pInt
  let cent ← tabulate (if zIn then p.centralVtxz else p.centralVtx) j
  let cent ← moveaxis [0] [-1] cent
  let a ← bop (fun x k => Num.npow x k) delMu jk
  let a ← mul a cent
  let a ← mul a pInt
  let a ← sum axes a
  let a ← mul jChooseK a
  sum [-1] a

/-- `get_noncentral_moment_v_tx` (parametric.py:817-837). -/
def ncmVtx (p : Param) (j : ℕ) (mu : Arr Num) (lw : Bool) : Py (Arr Num) := do
  let d ← p.cube.constructVolumeElement ['t','x']
  p.momentV [] false (full d.shape (.fin 1)) j mu lw

/-- `get_noncentral_moment_v_x` (parametric.py:839-858). -/
def ncmVx (p : Param) (j : ℕ) (mu : Arr Num) (lw : Bool) : Py (Arr Num) := do
  let w ← p.getP ['t','_','x'] false lw
  p.momentV [0] false w j mu lw

/-- `get_noncentral_moment_v_t` (parametric.py:878-900). -/
def ncmVt (p : Param) (j : ℕ) (mu : Arr Num) (lw : Bool) : Py (Arr Num) := do
  let w ← p.getP ['x','_','t'] false lw
  let w ← moveaxis [-1] [0] w
  let mu ← getitem [.all, .na, .na] mu
  p.momentV [1, 2] false w j mu lw

/-- `get_noncentral_moment_v` (parametric.py:921-940). -/
def ncmV (p : Param) (j : ℕ) (mu : Arr Num) (lw : Bool) : Py (Arr Num) := do
  let w ← p.getP ['t','x'] false lw
  p.momentV [0, 1, 2] false w j mu lw

/-- `get_noncentral_moment_v_txz` (parametric.py:960-982): uses only `mu[:, :, :, 0]`. -/
def ncmVtxz (p : Param) (j : ℕ) (mu : Arr Num) (lw : Bool) : Py (Arr Num) := do
  let mu ← getitem [.all, .all, .all, .at 0] mu
  let m ← p.ncmVtx j mu lw
  p.spreadZ m

/-- `get_noncentral_moment_v_tz` (parametric.py:1006-1028). -/
def ncmVtz (p : Param) (j : ℕ) (mu : Arr Num) (lw : Bool) : Py (Arr Num) := do
  let w ← p.getP ['x','_','t','z'] false lw
  let w ← moveaxis [-2] [0] w
  let mu ← getitem [.all, .na, .na, .all] mu
  p.momentV [1, 2] true w j mu lw

/-- `get_noncentral_moment_v_xz` (parametric.py:1050-1070). -/
def ncmVxz (p : Param) (j : ℕ) (mu : Arr Num) (lw : Bool) : Py (Arr Num) := do
  let w ← p.getP ['t','_','x','z'] false lw
  let mu ← getitem [.na] mu
  p.momentV [0] true w j mu lw

/-- `get_noncentral_moment_v_z` (parametric.py:1092-1113). -/
def ncmVz (p : Param) (j : ℕ) (mu : Arr Num) (lw : Bool) : Py (Arr Num) := do
  let w ← p.getP ['t','x','_','z'] false lw
  let mu ← getitem [.na, .na, .na] mu
  p.momentV [0, 1, 2] true w j mu lw

/-- `get_mean_v_x` (parametric.py:1142-1152). -/
def meanVx (p : Param) (lw : Bool) : Py (Arr Num) := do
  let e ← p.meanVtx lw
  let w ← p.getP ['t','_','x'] false lw
  let r ← mul e w
  sum [0] r

/-- `get_mean_v_t` (parametric.py:1154-1165). -/
def meanVt (p : Param) (lw : Bool) : Py (Arr Num) := do
  let e ← p.meanVtx lw
  let w ← p.getP ['x','_','t'] false lw
  let e ← moveaxis [0] [-1] e
  let r ← mul e w
  sum [0, 1] r

/-- `get_mean_v` (parametric.py:1167-1177). -/
def meanV (p : Param) (lw : Bool) : Py (Arr Num) := do
  let e ← p.meanVtx lw
  let w ← p.getP ['t','x'] false lw
  let r ← mul e w
  .ok (sumAll r)

/-- `get_mean_v_tz` (parametric.py:1192-1204). -/
def meanVtz (p : Param) (lw : Bool) : Py (Arr Num) := do
  let e ← p.meanVtxz lw
  let w ← p.getP ['x','_','t','z'] false lw
  let e ← moveaxis [0] [2] e
  let r ← mul e w
  sum [0, 1] r

/-- `get_mean_v_xz` (parametric.py:1206-1216). -/
def meanVxz (p : Param) (lw : Bool) : Py (Arr Num) := do
  let e ← p.meanVtxz lw
  let w ← p.getP ['t','_','x','z'] false lw
  let r ← mul e w
  sum [0] r

/-- `get_mean_v_z` (parametric.py:1218-1228). -/
def meanVz (p : Param) (lw : Bool) : Py (Arr Num) := do
  let e ← p.meanVtxz lw
  let w ← p.getP ['t','x','_','z'] false lw
  let r ← mul e w
  sum [0, 1, 2] r

/-- The methods `get_mean_*`, looked up by name. -/
def meanHC (p : Param) (w : PyStr) : Option (Bool → Py (Arr Num)) :=
  if w = ['v','_','t','x'] then some p.meanVtx
  else if w = ['v','_','x'] then some p.meanVx
  else if w = ['v','_','t'] then some p.meanVt
  else if w = ['v'] then some p.meanV
  else if w = ['v','_','t','x','z'] then some p.meanVtxz
  else if w = ['v','_','t','z'] then some p.meanVtz
  else if w = ['v','_','x','z'] then some p.meanVxz
  else if w = ['v','_','z'] then some p.meanVz
  else none

/-- The methods `get_noncentral_moment_*`, looked up by name. -/
def ncmHC (p : Param) (w : PyStr) : Option (ℕ → Arr Num → Bool → Py (Arr Num)) :=
  if w = ['v','_','t','x'] then some p.ncmVtx
  else if w = ['v','_','x'] then some p.ncmVx
  else if w = ['v','_','t'] then some p.ncmVt
  else if w = ['v'] then some p.ncmV
  else if w = ['v','_','t','x','z'] then some p.ncmVtxz
  else if w = ['v','_','t','z'] then some p.ncmVtz
  else if w = ['v','_','x','z'] then some p.ncmVxz
  else if w = ['v','_','z'] then some p.ncmVz
  else none

/-- A parametric component as seen by the inherited methods. -/
def self (p : Param) : Self where
  cube := p.cube
  logP := p.logP
  meanHC := p.meanHC
  ncmHC := p.ncmHC

end Param
end PKM
