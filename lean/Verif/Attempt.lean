import Verif.Protocol

/-!
# Setter calls that may be rejected

The setters of `Verif.Parametric` and `Verif.Disk` return the new component or an exception. In Python a method that
raises may already have assigned attributes, and a program that catches the exception goes on with that object. Here
the bodies of the setters are statements that give an outcome *and* the object left behind, with the assignments to
attributes in the order of the code. Arguments that are sequences are lists of any length; `lmd` and `phi` may be
`None`. Attributes that no method reads (`x_t_pars`, `p_x_t`, `p_t`, `t_dep_pars`, `mu_v_pars`, `sig_v_pars`, `p_x_pars`,
`mu_v_lims`, `nsmp`) are left out.
-/

open scoped Classical

noncomputable section

namespace PKM
open Np

/-- Statements acting on an object: the outcome and the object afterwards, also after an exception. -/
def Body (σ α : Type) := σ → Py α × σ

namespace Body
variable {σ α β : Type}

instance : Monad (Body σ) where
  pure a := fun s => (.ok a, s)
  bind x f := fun s => match x s with
    | (.ok a, s') => f a s'
    | (.error e, s') => (.error e, s')

/-- The object itself. -/
def object : Body σ σ := fun s => (.ok s, s)

/-- An expression: it may raise and assigns nothing. -/
def ev (x : Py α) : Body σ α := fun s => (x, s)

/-- An assignment to attributes. -/
def assign (f : σ → σ) : Body σ Unit := fun s => (.ok (), f s)

end Body

open Body

/-- The arguments `*l` of a function of two arguments: `TypeError` unless there are two. -/
def splat (l : List ℝ) : Py (ℝ × ℝ) :=
  match l with
  | [a, b] => .ok (a, b)
  | _ => .error .typeError

/-- `a, b = l`: `ValueError` unless there are two entries. -/
def unpack (l : List ℝ) : Py (ℝ × ℝ) :=
  match l with
  | [a, b] => .ok (a, b)
  | _ => .error .valueError

/-- A number where `None` is a possible argument: arithmetic with `None` is a `TypeError`. -/
def notNone (x : Option ℝ) : Py ℝ :=
  match x with
  | some x => .ok x
  | none => .error .typeError

namespace Param

/-- `set_p_t` (parametric.py:83-126): `t_pars` is assigned (line 112) before `log_p_t` (line 125). -/
def setPtBody (lmd phi : Option ℝ) (cdfStartEnd : List ℝ) : Body Param Unit := do
  let p ← object
  let lmd ← ev (notNone lmd)
  let phi ← ev (notNone phi)
  let ab := betaAB lmd phi
  if (if ab.1 > 1.0 then 1 else 0) + (if ab.2 > 1 then 1 else 0) < 1 then ev (.error .valueError)
  else do
    let edges := p.cube.ssps.tEdges
    let e0 ← ev (getitem [.at 0] edges)
    let e1 ← ev (getitem [.at (-1)] edges)
    let loc := e0.get []
    let scale := e1.get [] - e0.get []
    let q ← ev (unpack cdfStartEnd)
    let tStart := betaPpfNum ab.1 ab.2 loc scale q.1
    let tEnd := betaPpfNum ab.1 ab.2 loc scale q.2
    assign fun p => { p with tPars := some ⟨tStart, tEnd, tEnd - tStart⟩ }
    let logCdf := map (betaLogcdf ab.1 ab.2 loc scale) edges
    let hi ← ev (getitem [.sl 1 none] logCdf)
    let lo ← ev (getitem [.sl 0 (some (-1))] logCdf)
    let tmp ← ev (logDiff hi lo)
    let dt ← ev (p.cube.constructVolumeElement ['t'])
    let logPt ← ev (sub tmp (map Num.log dt))
    assign fun p => { p with logPt := some logPt }

/-- `set_p_z_tx` (parametric.py:283-293). -/
def setPztxBody : Body Param Unit := do
  let p ← object
  let t ← ev (attr p.tDep)
  let r ← ev (enrichmentBase p t)
  assign fun p => { p with logPztx := some r }

/-- `linear_interpolate_t(*lims)`. -/
def interpL (p : Param) (lims : List ℝ) : Py (Arr Num) := do
  let l ← splat lims
  p.linearInterpolateT l.1 l.2

/-- `linear_interpolate_t(*lims)[:, np.newaxis, np.newaxis]`. -/
def interpL3 (p : Param) (lims : List ℝ) : Py (Arr Num) := do
  let f ← p.interpL lims
  getitem [.all, .na, .na] f

end Param

open Param

namespace GrowingDisk

/-- `set_p_x_t` (growing_disk.py:30-68). -/
def setPxtBody (qLims rcLims alphaLims : List ℝ) : Body Param Unit := do
  let p ← object
  ev (pyAssert (∀ a ∈ qLims, a > 0.0))
  ev (pyAssert (∀ a ∈ rcLims, a > 0.0))
  ev (pyAssert (∀ a ∈ alphaLims, a ≥ 0.0))
  let q ← ev (p.interpL3 qLims)
  let rc ← ev (p.interpL3 rcLims)
  let alpha ← ev (p.interpL3 alphaLims)
  let rr ← ev (p.ellRadius q)
  let s ← ev (add rr rc)
  let logRho ← ev (mul (map Num.neg alpha) (map Num.log s))
  let w ← ev (add logRho p.logDxDy)
  let logNorm ← ev (logsumexp [1, 2] w)
  let r ← ev (sub (T logRho) logNorm)
  let r ← ev (moveaxis [0] [-1] (T r))
  assign fun p => { p with logPxt := some r }

/-- `set_t_dep` (growing_disk.py:70-114): `t_dep` is assigned (line 113) before `set_p_z_tx` runs. -/
def setTDepBody (q alpha tIn tOut tMin tMax : ℝ) : Body Param Unit := do
  let p ← object
  ev (pyAssert (q > 0.0))
  ev (pyAssert (alpha ≥ 0.0))
  ev (pyAssert (tMin ≥ 0.1))
  ev (pyAssert (tMax ≤ 13.0))
  ev (pyAssert (tIn ≥ tMin ∧ tIn ≤ tMax))
  ev (pyAssert (tOut ≥ tMin ∧ tOut ≤ tMax))
  let rr ← ev (p.ellRadius (scalar (.fin q)))
  let m ← ev (amax (map Num.abs p.xxp))
  let f ← ev (div rr (scalar m))
  let t := map (fun x => Num.fin tIn + Num.fin (tOut - tIn) * Num.rpow x (.fin alpha)) f
  let t := map (clipOut (tIn ≤ tOut) (.fin tOut)) t
  assign fun p => { p with tDep := some t }
  setPztxBody

/-- `set_mu_v` (growing_disk.py:116-169). -/
def setMuVBody (qLims rmaxLims vmaxLims : List ℝ) : Body Param Unit := do
  let p ← object
  ev (pyAssert (∀ a ∈ qLims, a > 0.0))
  ev (pyAssert ((∀ a ∈ vmaxLims, 0 ≤ a) ∨ (∀ a ∈ vmaxLims, a ≤ 0)))
  let q ← ev (p.interpL qLims)
  let rmax ← ev (p.interpL rmaxLims)
  let vmax ← ev (p.interpL vmaxLims)
  let rc := map (fun r => Num.fin 2.0 * r) rmax
  let rs ← ev (add rmax rc)
  let k ← ev (mul vmax (map (fun r => Num.npow r 3) rs))
  let k ← ev (div k rmax)
  let q ← ev (getitem [.all, .na, .na] q)
  let rc ← ev (getitem [.all, .na, .na] rc)
  let k ← ev (getitem [.all, .na, .na] k)
  let yq ← ev (div p.yyp q)
  let th ← ev (bop Num.arctan2 yq p.xxp)
  let rr ← ev (p.ellRadius q)
  let a ← ev (mul k rr)
  let d ← ev (add rr rc)
  let a ← ev (div a (map (fun r => Num.npow r 3) d))
  let mu ← ev (mul a (map Num.cos th))
  assign fun p => { p with muV := some mu }

/-- `set_sig_v` (growing_disk.py:171-239). -/
def setSigVBody (qLims alphaLims inLims outLims : List ℝ) : Body Param Unit := do
  let p ← object
  ev (pyAssert (∀ a ∈ qLims, a > 0.0))
  ev (pyAssert (∀ a ∈ alphaLims, a ≥ 0.0))
  ev (pyAssert (∀ a ∈ inLims, a > 0.0))
  ev (pyAssert (∀ a ∈ outLims, a > 0.0))
  let q ← ev (p.interpL3 qLims)
  let alpha ← ev (p.interpL3 alphaLims)
  let sIn ← ev (p.interpL3 inLims)
  let sOut ← ev (p.interpL3 outLims)
  let rr ← ev (p.ellRadius q)
  let d ← ev (sub sOut sIn)
  let m ← ev (amax (map Num.abs p.xxp))
  let f ← ev (div rr (scalar m))
  let pw ← ev (bop Num.rpow f alpha)
  let a ← ev (mul d pw)
  let sigma ← ev (add sIn a)
  let nt ← ev (p.cube.getVariableSize ['t'])
  let sigma : Arr Num := ⟨sigma.shape, fun i =>
    let o := sOut.get [i.getD 0 0, 0, 0]
    if i.getD 0 0 < nt then clipOut ((sIn.get [i.getD 0 0, 0, 0]).lt o) o (sigma.get i) else sigma.get i⟩
  assign fun p => { p with sigV := some sigma }

end GrowingDisk

/-- A `Stream` object whose attribute `theta_lims` is the list that was given. -/
structure StreamObj where
  base : Param
  theta : Option (List ℝ)

namespace StreamObj

/-- A statement on the attributes of the parent class. -/
def onBase {α : Type} (b : Body Param α) : Body StreamObj α := fun s => ((b s.base).1, { s with base := (b s.base).2 })

/-- Least and greatest entry of a list (`np.min`, `np.max`): `ValueError` for an empty one. -/
def minL : List ℝ → Py ℝ
  | [] => .error .valueError
  | a :: l => .ok (l.foldl min a)

@[inherit_doc minL]
def maxL : List ℝ → Py ℝ
  | [] => .error .valueError
  | a :: l => .ok (l.foldl max a)

/-- `l[k]` of a list: `IndexError` beyond its end. -/
def entry (l : List ℝ) (k : ℕ) : Py ℝ :=
  match l[k]? with
  | some a => .ok a
  | none => .error .indexError

/-- `set_p_x_t` (stream.py:28-91): `theta_lims` is assigned (line 52) before anything else is looked at. `np.linspace` of
a negative number of points (line 56) is a `ValueError`. (With no points the model goes on, as `Stream.setPxt` does;
versions of scipy differ in whether `logsumexp` over an empty axis raises.) -/
def setPxtBody (theta muR : List ℝ) (sig : ℝ) (nsmp : ℤ) : Body StreamObj Unit := do
  let lo ← ev (minL theta)
  ev (pyAssert (lo ≥ -Real.pi))
  let hi ← ev (maxL theta)
  ev (pyAssert (hi ≤ Real.pi))
  assign fun s => { s with theta := some theta }
  let s ← object
  let p := s.base
  let th ← ev (unpack theta)
  if nsmp < 0 then ev (.error .valueError)
  else do
    let smp := Stream.linspaceR th.1 th.2 nsmp.toNat
    let mr ← ev (unpack muR)
    let muRs : ℕ → Num := fun k => .fin mr.1 + .fin (mr.2 - mr.1) * (.fin (smp k - th.1) / .fin (th.2 - th.1))
    let muX := vec nsmp.toNat (fun k => muRs k * .fin (Real.cos (smp k)))
    let muY := vec nsmp.toNat (fun k => muRs k * .fin (Real.sin (smp k)))
    let ts ← ev (p.cube.getVariableValues ['t'])
    let nt ← ev (IFUCube.pyLen ts)
    let lx ← ev (Stream.logPix p.xxp muX sig p.cube.dx)
    let ly ← ev (Stream.logPix p.yyp muY sig p.cube.dy)
    let l ← ev (add lx ly)
    let l ← ev (logsumexp [-1] l)
    let l ← ev (isub l (logsumexpAll l))
    let l ← ev (isub l p.logDxDy)
    let l ← ev (broadcastTo (nt :: l.shape) l)
    let l ← ev (moveaxis [0] [-1] l)
    assign fun s => { s with base := { s.base with logPxt := some l } }

/-- `set_t_dep` (stream.py:93-101). -/
def setTDepBody (tDep : ℝ) : Body StreamObj Unit := do
  assign fun s => { s with base := { s.base with tDep := some (full [s.base.cube.nx, s.base.cube.ny] (.fin tDep)) } }
  onBase setPztxBody

/-- `set_mu_v` (stream.py:103-127). -/
def setMuVBody (lims : List ℝ) : Body StreamObj Unit := do
  let s ← object
  let p := s.base
  let th ← ev (bop Num.arctan2 p.yyp p.xxp)
  let theta ← ev (attr s.theta)
  let a ← ev (entry theta 0)
  let b ← ev (entry theta 1)
  let l ← ev (unpack lims)
  let lh : ℝ × ℝ := if a < b then (l.1, l.2) else (l.2, l.1)
  let minTh ← ev (minL theta)
  let maxTh ← ev (maxL theta)
  let mu := map (Stream.muAt lh.1 lh.2 minTh maxTh) th
  let ts ← ev (p.cube.getVariableValues ['t'])
  let nt ← ev (IFUCube.pyLen ts)
  let mu ← ev (broadcastTo (nt :: mu.shape) mu)
  assign fun s => { s with base := { s.base with muV := some mu } }

/-- `set_sig_v` (stream.py:129-138). -/
def setSigVBody (sigV : ℝ) : Body StreamObj Unit := do
  let s ← object
  let nt ← ev (IFUCube.pyLen s.base.cube.ssps.tCents)
  assign fun s => { s with base := { s.base with sigV := some (full [nt, s.base.cube.nx, s.base.cube.ny] (.fin sigV)) } }

end StreamObj

/-- A call of a setter of a growing disk, with arguments of any length. -/
inductive DiskTry where
  | setPt (lmd phi : Option ℝ) (q : List ℝ)
  | setPxt (q rc alpha : List ℝ)
  | setTDep (q alpha tIn tOut tMin tMax : ℝ)
  | setMuV (q rmax vmax : List ℝ)
  | setSigV (q alpha sIn sOut : List ℝ)

/-- The body of the method called. -/
def DiskTry.body : DiskTry → Body Param Unit
  | .setPt lmd phi q => setPtBody lmd phi q
  | .setPxt q rc alpha => GrowingDisk.setPxtBody q rc alpha
  | .setTDep q alpha tIn tOut tMin tMax => GrowingDisk.setTDepBody q alpha tIn tOut tMin tMax
  | .setMuV q rmax vmax => GrowingDisk.setMuVBody q rmax vmax
  | .setSigV q alpha sIn sOut => GrowingDisk.setSigVBody q alpha sIn sOut

/-- A call of a setter of a stream, with arguments of any length and any number of points. -/
inductive StreamTry where
  | setPt (lmd phi : Option ℝ) (q : List ℝ)
  | setPxt (theta muR : List ℝ) (sig : ℝ) (n : ℤ)
  | setTDep (τ : ℝ)
  | setMuV (lims : List ℝ)
  | setSigV (sigV : ℝ)

@[inherit_doc DiskTry.body]
def StreamTry.body : StreamTry → Body StreamObj Unit
  | .setPt lmd phi q => StreamObj.onBase (setPtBody lmd phi q)
  | .setPxt theta muR sig n => StreamObj.setPxtBody theta muR sig n
  | .setTDep τ => StreamObj.setTDepBody τ
  | .setMuV lims => StreamObj.setMuVBody lims
  | .setSigV sigV => StreamObj.setSigVBody sigV

/-- A program that makes the calls one after the other and catches every exception: `try: call except: pass`. -/
def tryAll {σ κ : Type} (body : κ → Body σ Unit) : σ → List κ → σ
  | s, [] => s
  | s, k :: ks => tryAll body (body k s).2 ks

/-- Those of the calls that did not raise, in order. -/
def accepted {σ κ : Type} (body : κ → Body σ Unit) : σ → List κ → List κ
  | _, [] => []
  | s, k :: ks => match (body k s).1 with
    | .ok _ => k :: accepted body (body k s).2 ks
    | .error _ => accepted body (body k s).2 ks

end PKM
