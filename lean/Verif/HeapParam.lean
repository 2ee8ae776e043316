import Verif.HeapComp
import Verif.Parametric

/-!
# Parametric components, in memory

A second model of the query methods of `ParametricComponent` (parametric.py), with array objects: the attributes set by the `set_*`
methods are references, slices, transposes, `np.moveaxis` and `np.broadcast_to` are views, arithmetic makes new arrays and `+=` writes
in place. The definitions follow those of `Parametric.lean`; the same lines are modelled.
-/

open scoped Classical

noncomputable section

namespace PKM
open Np

namespace H

/-- `if c: o = f(o)`. -/
def onlyIf (c : Bool) (f : Ptr → H Ptr) (o : Ptr) : H Ptr := if c then f o else pure o

/-- `o += x` for a number `x`. -/
def iaddNum (x : Num) (o : Ptr) : H Ptr := do
  iop (· + ·) o (scalar x)
  pure o

/-- `o += b`. -/
def iaddArr (b : Ptr) (o : Ptr) : H Ptr := do
  iadd o b
  pure o

/-- `np.broadcast_to(a, s)`: a view (numpy also marks it as read-only, which is not modelled). -/
def broadcastTo (s : List ℕ) (o : Ptr) : H Ptr := do
  let a ← read o
  let _ ← lift (Np.broadcastTo s a)
  pure ⟨o.buf, some (s, fun i =>
    let j := bproj a.shape i
    match o.view with
    | none => j
    | some (_, f) => f j)⟩

/-- `[f(k) for k in l]`. -/
def each (f : ℕ → H Ptr) : List ℕ → H (List Ptr)
  | [] => pure []
  | k :: l => do
    let o ← f k
    let r ← each f l
    pure (o :: r)

/-- `np.array([o_0, ..., o_k])`: a new array. -/
def stackN (l : List Ptr) : H Ptr := fun h => new (stack (l.map h.val)) h

end H

/-- A parametric component in memory. -/
structure HParam where
  cube : HCube
  f2 : ℝ
  logPt : Option Ptr
  logPxt : Option Ptr
  logPztx : Option Ptr
  muV : Option Ptr
  sigV : Option Ptr

namespace HParam

/-- Reading an attribute: the reference. -/
def attr : Option Ptr → H Ptr
  | some o => pure o
  | none => H.throw .attributeError

/-- `np.log(self.cube.dx) + np.log(self.cube.dy)`. -/
def logDxDy (p : HParam) : Num := Num.log p.cube.dx + Num.log p.cube.dy

/-- `np.log(self.cube.construct_volume_element(w))`. -/
def logVol (p : HParam) (w : PyStr) : H Ptr := do
  let d ← p.cube.constructVolumeElement w
  H.map Num.log d

/-- `(a.T + b).T`. -/
def addT (a b : Ptr) : H Ptr := do
  let aT ← H.T a
  let r ← H.op2 add aT b
  H.T r

/-- `(a.T - np.log(dv)).T` (parametric.py:208-211). -/
def perV (p : HParam) (r : Ptr) : H Ptr := do
  let d ← p.logVol ['v']
  let rT ← H.T r
  let q ← H.op2 sub rT d
  H.T q

/-! ### Distributions -/

/-- `_get_log_p_x_t`, mass weighted (parametric.py:151-152, 160-162): a copy of the stored array. -/
def xtMass (p : HParam) (density : Bool) : H Ptr := do
  let a ← attr p.logPxt
  let a ← H.copy a
  H.onlyIf (!density) (H.iaddNum p.logDxDy) a

/-- `_get_log_p_t`, mass weighted (parametric.py:422-423, 428-430): a copy of the stored array. -/
def tMass (p : HParam) (density : Bool) : H Ptr := do
  let a ← attr p.logPt
  let a ← H.copy a
  H.onlyIf (!density) (fun a => do let d ← p.logVol ['t']; H.iaddArr d a) a

/-- `_get_log_p_v_tx`, mass weighted (parametric.py:193-200, 208-211). `stats.norm(...).logcdf` and the logarithm of the
difference of exponentials make new arrays. -/
def vtxMass (p : HParam) (density : Bool) : H Ptr := do
  let vEdg ← H.getitem [.all, .na, .na, .na] p.cube.vEdg
  let mu ← attr p.muV
  let sig ← attr p.sigV
  let lo ← H.getitem [.sl 0 (some (-1))] vEdg
  let cdf0 ← logcdf mu sig lo
  let hi ← H.getitem [.sl 1 none] vEdg
  let cdf1 ← logcdf mu sig hi
  let r ← H.op2 logDiff cdf1 cdf0
  H.onlyIf density p.perV r
where
  /-- `stats.norm(loc=mu, scale=sig).logcdf(x)`. -/
  logcdf (mu sig x : Ptr) : H Ptr := do
    let m ← H.read mu
    let s ← H.read sig
    let y ← H.read x
    H.new (normLogcdf m s y)

/-- `_get_log_p_z_tx`, mass weighted (parametric.py:322-323, 330-333): a copy of the stored array. -/
def ztxMass (p : HParam) (density : Bool) : H Ptr := do
  let a ← attr p.logPztx
  let a ← H.copy a
  H.onlyIf (!density) (fun a => do let d ← p.logVol ['z']; addT a d) a

/-- `_get_log_p_tx`, mass weighted (parametric.py:464-468). -/
def txMass (p : HParam) (density : Bool) : H Ptr := do
  let a ← p.xtMass density
  let b ← p.tMass density
  let r ← H.op2 add a b
  H.moveaxis [-1] [0] r

/-- `_get_log_p_txz`, mass weighted (parametric.py:554-557). -/
def txzMass (p : HParam) (density : Bool) : H Ptr := do
  let a ← p.txMass density
  let b ← p.ztxMass density
  let a ← H.getitem [.all, .all, .all, .na] a
  let b ← H.moveaxis [0] [-1] b
  H.op2 add a b

/-- `_get_log_p_txz` (parametric.py:541-567). -/
def txz (p : HParam) (density lw : Bool) : H Ptr := do
  let r ← p.txzMass density
  if lw then do
    let m ← p.txzMass false
    let l ← H.getitem [.all, .na, .na, .all] p.cube.lightWeights
    let l ← H.map Num.log l
    let ml ← H.op2 add m l
    let norm ← H.op1 (fun a => .ok (logsumexpAll a)) ml
    let r ← H.op2 add r l
    H.op2 sub r norm
  else pure r

/-- `_get_log_p_tvxz`, mass weighted (parametric.py:582-586). -/
def tvxzMass (p : HParam) (density : Bool) : H Ptr := do
  let a ← p.txzMass density
  let v ← p.vtxMass density
  let v ← H.getitem [.all, .all, .all, .all, .na] v
  let v ← H.moveaxis [0] [1] v
  let a ← H.getitem [.all, .na, .all, .all, .all] a
  H.op2 add v a

/-- `_get_log_p_tvxz` (parametric.py:569-596). -/
def tvxz (p : HParam) (density lw : Bool) : H Ptr := do
  let r ← p.tvxzMass density
  if lw then do
    let m ← p.tvxzMass false
    let l ← H.getitem [.all, .na, .na, .na, .all] p.cube.lightWeights
    let l ← H.map Num.log l
    let ml ← H.op2 add m l
    let norm ← H.op1 (fun a => .ok (logsumexpAll a)) ml
    let r ← H.op2 add r l
    H.op2 sub r norm
  else pure r

/-- `_get_log_p_tz` (parametric.py:476-493): `+=` on the array returned by the callee. -/
def tz (p : HParam) (density lw : Bool) : H Ptr := do
  let a ← p.txz density lw
  let a ← H.onlyIf density (H.iaddNum p.logDxDy) a
  H.op1 (logsumexp [1, 2]) a

/-- `_get_log_p_t` (parametric.py:409-430). -/
def t (p : HParam) (density lw : Bool) : H Ptr :=
  if lw then do
    let a ← p.tz true true
    let dz ← p.logVol ['z']
    let a ← H.op2 add a dz
    let r ← H.op1 (logsumexp [1]) a
    H.onlyIf (!density) (fun a => do let d ← p.logVol ['t']; H.iaddArr d a) r
  else p.tMass density

/-- `_get_log_p_tx` (parametric.py:451-474). -/
def tx (p : HParam) (density lw : Bool) : H Ptr :=
  if lw then do
    let a ← p.txz density true
    let a ← H.onlyIf density (fun a => do let d ← p.logVol ['z']; H.iaddArr d a) a
    H.op1 (logsumexp [-1]) a
  else p.txMass density

/-- `_get_log_p_x_t` (parametric.py:138-162): `+=` through the views of `.T` and `np.moveaxis`. -/
def xt (p : HParam) (density lw : Bool) : H Ptr :=
  if lw then do
    let a ← p.txz true true
    let dz ← p.logVol ['z']
    let a ← H.op2 add a dz
    let tx ← H.op1 (logsumexp [-1]) a
    let t ← p.t true true
    let txT ← H.T tx
    let r ← H.op2 sub txT t
    let r ← H.T r
    let r ← H.moveaxis [0] [-1] r
    H.onlyIf (!density) (H.iaddNum p.logDxDy) r
  else p.xtMass density

/-- `_get_log_p_v_tx` (parametric.py:180-211). -/
def vtx (p : HParam) (density lw : Bool) : H Ptr :=
  if lw then do
    let a ← p.tvxz false true
    let tvx ← H.op1 (logsumexp [-1]) a
    let tx ← H.op1 (logsumexp [1]) tvx
    let tx ← H.getitem [.all, .na, .all, .all] tx
    let r ← H.op2 sub tvx tx
    let r ← H.moveaxis [0] [1] r
    H.onlyIf density p.perV r
  else p.vtxMass density

/-- `_get_log_p_z_tx` (parametric.py:309-333). -/
def ztx (p : HParam) (density lw : Bool) : H Ptr :=
  if lw then do
    let a ← p.txz true true
    let dz ← p.logVol ['z']
    let w ← H.op2 add a dz
    let tx ← H.op1 (logsumexp [-1]) w
    let aT ← H.T a
    let txT ← H.T tx
    let r ← H.op2 sub aT txT
    let r ← H.T r
    let r ← H.moveaxis [-1] [0] r
    H.onlyIf (!density) (fun a => do let d ← p.logVol ['z']; addT a d) r
  else p.ztxMass density

/-- `_get_log_p_tvx` (parametric.py:495-518). -/
def tvx (p : HParam) (density lw : Bool) : H Ptr :=
  if lw then do
    let a ← p.tvxz density true
    let a ← H.onlyIf density (fun a => do let d ← p.logVol ['z']; H.iaddArr d a) a
    H.op1 (logsumexp [-1]) a
  else do
    let a ← p.txMass density
    let v ← p.vtxMass density
    let a ← H.getitem [.all, .na, .all, .all] a
    let v ← H.moveaxis [0] [1] v
    H.op2 add a v

/-- `_get_log_p_tv` (parametric.py:432-449). -/
def tv (p : HParam) (density lw : Bool) : H Ptr := do
  let a ← p.tvx density lw
  let a ← H.onlyIf density (H.iaddNum p.logDxDy) a
  H.op1 (logsumexp [-1, -2]) a

/-- `_get_log_p_tvz` (parametric.py:520-539). -/
def tvz (p : HParam) (density lw : Bool) : H Ptr := do
  let a ← p.tvxz density lw
  let a ← H.onlyIf density (H.iaddNum p.logDxDy) a
  H.op1 (logsumexp [2, 3]) a

/-- `_get_log_p_v` (parametric.py:598-617): `+=` through the view of `.T`. -/
def v (p : HParam) (density lw : Bool) : H Ptr := do
  let a ← p.tvx density lw
  let a ← H.onlyIf density (fun a => do
    let d ← p.logVol ['t']
    let a ← addT a d
    H.iaddNum p.logDxDy a) a
  H.op1 (logsumexp [0, 2, 3]) a

/-- `_get_log_p_vx` (parametric.py:619-637). -/
def vx (p : HParam) (density lw : Bool) : H Ptr := do
  let a ← p.tvx density lw
  let a ← H.onlyIf density (fun a => do let d ← p.logVol ['t']; addT a d) a
  H.op1 (logsumexp [0]) a

/-- `_get_log_p_vxz` (parametric.py:658-678). -/
def vxz (p : HParam) (density lw : Bool) : H Ptr := do
  let a ← p.tvxz density lw
  let a ← H.onlyIf density (fun a => do let d ← p.logVol ['t']; addT a d) a
  H.op1 (logsumexp [0]) a

/-- `_get_log_p_vz` (parametric.py:639-656). -/
def vz (p : HParam) (density lw : Bool) : H Ptr := do
  let a ← p.vxz density lw
  let a ← H.onlyIf density (H.iaddNum p.logDxDy) a
  H.op1 (logsumexp [1, 2]) a

/-- `_get_log_p_x` (parametric.py:680-704). -/
def x (p : HParam) (density lw : Bool) : H Ptr :=
  if lw then do
    let a ← p.txz density true
    let a ← H.onlyIf density (fun a => do
      let d ← p.logVol ['t','z']
      let d ← H.getitem [.all, .na, .na, .all] d
      H.iaddArr d a) a
    H.op1 (logsumexp [0, 3]) a
  else do
    let a ← p.xtMass density
    let b ← p.tMass false
    let r ← H.op2 add a b
    H.op1 (logsumexp [-1]) r

/-- `_get_log_p_xz` (parametric.py:706-724). -/
def xz (p : HParam) (density lw : Bool) : H Ptr := do
  let a ← p.txz density lw
  let a ← H.onlyIf density (fun a => do let d ← p.logVol ['t']; addT a d) a
  H.op1 (logsumexp [0]) a

/-- `_get_log_p_z` (parametric.py:726-744). -/
def z (p : HParam) (density lw : Bool) : H Ptr := do
  let a ← p.tz density lw
  let a ← H.onlyIf density (fun a => do let d ← p.logVol ['t']; addT a d) a
  H.op1 (logsumexp [0]) a

/-- The methods `_get_log_p_*`, looked up by name. -/
def logP (p : HParam) (w : PyStr) : Option (Bool → Bool → H Ptr) :=
  if w = ['t'] then some p.t
  else if w = ['t','v'] then some p.tv
  else if w = ['t','x'] then some p.tx
  else if w = ['t','z'] then some p.tz
  else if w = ['t','v','x'] then some p.tvx
  else if w = ['t','v','z'] then some p.tvz
  else if w = ['t','x','z'] then some p.txz
  else if w = ['t','v','x','z'] then some p.tvxz
  else if w = ['v'] then some p.v
  else if w = ['v','x'] then some p.vx
  else if w = ['v','z'] then some p.vz
  else if w = ['v','x','z'] then some p.vxz
  else if w = ['x'] then some p.x
  else if w = ['x','z'] then some p.xz
  else if w = ['z'] then some p.z
  else if w = ['x','_','t'] then some p.xt
  else if w = ['v','_','t','x'] then some p.vtx
  else if w = ['z','_','t','x'] then some p.ztx
  else none

/-- `self.get_p(w, density, light_weighted)`. -/
def getP (p : HParam) (w : PyStr) (density lw : Bool) : H Ptr :=
  HComp.getP ⟨p.cube, p.logP, fun _ => none, fun _ => none⟩ w density lw

/-! ### Velocity moments -/

/-- `special.factorial2(n)` for `n = j - 1`, `j` even. -/
def fact2 (p : HParam) (j : ℕ) : ℝ := if j = 0 then p.f2 else (Nat.doubleFactorial (j - 1) : ℝ)

/-- `get_central_moment_v_tx` (parametric.py:746-763): always a new array. -/
def centralVtx (p : HParam) (j : ℕ) : H Ptr := do
  let s ← attr p.sigV
  if j % 2 = 0 then H.map (fun s => s.npow j * .fin (p.fact2 j)) s
  else H.op1 (fun s => .ok (full s.shape (.fin 0))) s

/-- `np.moveaxis(np.broadcast_to(a, (nz,) + a.shape), 0, -1)` (parametric.py:979-981, 1001-1003, 1187-1189): a view of `a`. -/
def spreadZ (p : HParam) (a : Ptr) : H Ptr := do
  let d ← H.read p.cube.deltaZ
  let x ← H.read a
  let a ← H.broadcastTo (d.shape.headD 0 :: x.shape) a
  H.moveaxis [0] [-1] a

/-- `get_central_moment_v_txz` (parametric.py:984-1004). -/
def centralVtxz (p : HParam) (j : ℕ) : H Ptr := do
  let a ← p.centralVtx j
  p.spreadZ a

/-- `get_mean_v_tx` (parametric.py:1133-1140): `return self.mu_v`, the component's own array. -/
def meanVtx (p : HParam) (_lw : Bool) : H Ptr := attr p.muV

/-- `get_mean_v_txz` (parametric.py:1179-1190): a view of the component's own array. -/
def meanVtxz (p : HParam) (lw : Bool) : H Ptr := do
  let a ← p.meanVtx lw
  p.spreadZ a

/-- `np.array([f(k0) for k0 in k])` for `k = 0, ..., j`. -/
def tabulate (f : ℕ → H Ptr) (j : ℕ) : H Ptr := do
  let l ← H.each f (List.range (j + 1))
  H.stackN l

/-- `__get_noncentral_moment_v__` (parametric.py:765-815). -/
def momentV (p : HParam) (axes : List ℤ) (zIn : Bool) (pInt : Ptr) (j : ℕ) (mu : Ptr) (lw : Bool) : H Ptr := do
  let e ← (if zIn then p.meanVtxz lw else p.meanVtx lw : H Ptr)
  let ea ← H.read e
  let jk : Arr ℕ ← H.lift (Np.broadcastTo (ea.shape ++ [j + 1]) (vec (j + 1) (fun k => j - k)))
  let delMu ← H.op2 sub e mu
  let ix := if zIn then [Ix.all, .all, .all, .all, .na] else [Ix.all, .all, .all, .na]
  let delMu ← H.getitem ix delMu
  let pInt ← H.getitem ix pInt
  let cent ← tabulate (if zIn then p.centralVtxz else p.centralVtx) j
  let cent ← H.moveaxis [0] [-1] cent
  let a ← H.op1 (fun x => bop (fun x k => Num.npow x k) x jk) delMu
  let a ← H.op2 mul a cent
  let a ← H.op2 mul a pInt
  let a ← H.op1 (sum axes) a
  let a ← H.op1 (fun x => mul (vec (j + 1) (fun k => .fin (Nat.choose j k))) x) a
  H.op1 (sum [-1]) a

/-- `get_noncentral_moment_v_tx` (parametric.py:817-837). -/
def ncmVtx (p : HParam) (j : ℕ) (mu : Ptr) (lw : Bool) : H Ptr := do
  let d ← p.cube.constructVolumeElement ['t','x']
  let one ← H.op1 (fun d => .ok (full d.shape (.fin 1))) d
  p.momentV [] false one j mu lw

/-- `get_noncentral_moment_v_x` (parametric.py:839-858). -/
def ncmVx (p : HParam) (j : ℕ) (mu : Ptr) (lw : Bool) : H Ptr := do
  let w ← p.getP ['t','_','x'] false lw
  p.momentV [0] false w j mu lw

/-- `get_noncentral_moment_v_t` (parametric.py:878-900). -/
def ncmVt (p : HParam) (j : ℕ) (mu : Ptr) (lw : Bool) : H Ptr := do
  let w ← p.getP ['x','_','t'] false lw
  let w ← H.moveaxis [-1] [0] w
  let mu ← H.getitem [.all, .na, .na] mu
  p.momentV [1, 2] false w j mu lw

/-- `get_noncentral_moment_v` (parametric.py:921-940). -/
def ncmV (p : HParam) (j : ℕ) (mu : Ptr) (lw : Bool) : H Ptr := do
  let w ← p.getP ['t','x'] false lw
  p.momentV [0, 1, 2] false w j mu lw

/-- `get_noncentral_moment_v_txz` (parametric.py:960-982). -/
def ncmVtxz (p : HParam) (j : ℕ) (mu : Ptr) (lw : Bool) : H Ptr := do
  let mu ← H.getitem [.all, .all, .all, .at 0] mu
  let m ← p.ncmVtx j mu lw
  p.spreadZ m

/-- `get_noncentral_moment_v_tz` (parametric.py:1006-1028). -/
def ncmVtz (p : HParam) (j : ℕ) (mu : Ptr) (lw : Bool) : H Ptr := do
  let w ← p.getP ['x','_','t','z'] false lw
  let w ← H.moveaxis [-2] [0] w
  let mu ← H.getitem [.all, .na, .na, .all] mu
  p.momentV [1, 2] true w j mu lw

/-- `get_noncentral_moment_v_xz` (parametric.py:1050-1070). -/
def ncmVxz (p : HParam) (j : ℕ) (mu : Ptr) (lw : Bool) : H Ptr := do
  let w ← p.getP ['t','_','x','z'] false lw
  let mu ← H.getitem [.na] mu
  p.momentV [0] true w j mu lw

/-- `get_noncentral_moment_v_z` (parametric.py:1092-1113). -/
def ncmVz (p : HParam) (j : ℕ) (mu : Ptr) (lw : Bool) : H Ptr := do
  let w ← p.getP ['t','x','_','z'] false lw
  let mu ← H.getitem [.na, .na, .na] mu
  p.momentV [0, 1, 2] true w j mu lw

/-- `get_mean_v_x` (parametric.py:1142-1152). -/
def meanVx (p : HParam) (lw : Bool) : H Ptr := do
  let e ← p.meanVtx lw
  let w ← p.getP ['t','_','x'] false lw
  let r ← H.op2 mul e w
  H.op1 (sum [0]) r

/-- `get_mean_v_t` (parametric.py:1154-1165). -/
def meanVt (p : HParam) (lw : Bool) : H Ptr := do
  let e ← p.meanVtx lw
  let w ← p.getP ['x','_','t'] false lw
  let e ← H.moveaxis [0] [-1] e
  let r ← H.op2 mul e w
  H.op1 (sum [0, 1]) r

/-- `get_mean_v` (parametric.py:1167-1177). -/
def meanV (p : HParam) (lw : Bool) : H Ptr := do
  let e ← p.meanVtx lw
  let w ← p.getP ['t','x'] false lw
  let r ← H.op2 mul e w
  H.op1 (fun a => .ok (sumAll a)) r

/-- `get_mean_v_tz` (parametric.py:1192-1204). -/
def meanVtz (p : HParam) (lw : Bool) : H Ptr := do
  let e ← p.meanVtxz lw
  let w ← p.getP ['x','_','t','z'] false lw
  let e ← H.moveaxis [0] [2] e
  let r ← H.op2 mul e w
  H.op1 (sum [0, 1]) r

/-- `get_mean_v_xz` (parametric.py:1206-1216). -/
def meanVxz (p : HParam) (lw : Bool) : H Ptr := do
  let e ← p.meanVtxz lw
  let w ← p.getP ['t','_','x','z'] false lw
  let r ← H.op2 mul e w
  H.op1 (sum [0]) r

/-- `get_mean_v_z` (parametric.py:1218-1228). -/
def meanVz (p : HParam) (lw : Bool) : H Ptr := do
  let e ← p.meanVtxz lw
  let w ← p.getP ['t','x','_','z'] false lw
  let r ← H.op2 mul e w
  H.op1 (sum [0, 1, 2]) r

/-- The methods `get_mean_*`, looked up by name. -/
def meanHC (p : HParam) (w : PyStr) : Option (Bool → H Ptr) :=
  if w = ['v','_','t','x'] then some p.meanVtx
  else if w = ['v','_','x'] then some p.meanVx
  else if w = ['v','_','t'] then some p.meanVt
  else if w = ['v'] then some p.meanV
  else if w = ['v','_','t','x','z'] then some p.meanVtxz
  else if w = ['v','_','t','z'] then some p.meanVtz
  else if w = ['v','_','x','z'] then some p.meanVxz
  else if w = ['v','_','z'] then some p.meanVz
  else none

/-- The methods `get_noncentral_moment_*`, looked up by name. -/
def ncmHC (p : HParam) (w : PyStr) : Option (ℕ → Ptr → Bool → H Ptr) :=
  if w = ['v','_','t','x'] then some p.ncmVtx
  else if w = ['v','_','x'] then some p.ncmVx
  else if w = ['v','_','t'] then some p.ncmVt
  else if w = ['v'] then some p.ncmV
  else if w = ['v','_','t','x','z'] then some p.ncmVtxz
  else if w = ['v','_','t','z'] then some p.ncmVtz
  else if w = ['v','_','x','z'] then some p.ncmVxz
  else if w = ['v','_','z'] then some p.ncmVz
  else none

/-- A parametric component as seen by the inherited methods. -/
def self (p : HParam) : HSelf where
  cube := p.cube
  logP := p.logP
  meanHC := p.meanHC
  ncmHC := p.ncmHC

end HParam
end PKM
