import Verif.Parametric
import Mathlib.Analysis.SpecialFunctions.Complex.Arg

/-!
# Model of `components.growing_disk.GrowingDisk` and `components.stream.Stream`

Every setter returns the updated component; `.error` is the exception raised.  Attributes that are
only written for bookkeeping (`x_t_pars`, `t_dep_pars`, `mu_v_pars`, `sig_v_pars`, `p_x_pars`,
`p_x_t`, `nsmp`, `mu_v_lims`) are never read and left out.
-/

open scoped Classical

noncomputable section

namespace PKM

namespace Num

/-- `x ** 2`. -/
def sq (x : Num) : Num := x * x

/-- `np.abs`. -/
def abs : Num → Num
  | fin a => fin |a|
  | nan => nan
  | _ => pinf

/-- `np.maximum`: nan as soon as one side is. -/
def max (a b : Num) : Num := if a = nan ∨ b = nan then nan else if a.lt b then b else a

/-- `x ** a` as C `pow`, for exponents that are not integers (negative bases give nan; those do not occur). -/
def rpow : Num → Num → Num
  | x, fin b => if b = 0 then fin 1 else
    match x with
    | fin a => if a < 0 then nan else if a = 0 ∧ b < 0 then pinf else fin (a ^ b)
    | pinf => if 0 < b then pinf else fin 0
    | _ => nan
  | _, _ => nan

/-- `np.cos`. -/
def cos : Num → Num
  | fin a => fin (Real.cos a)
  | _ => nan

/-- `np.arctan2(y, x)`, in `(-π, π]`, 0 at the origin. Simplification: zeros are taken as `+0`, and
infinite arguments (not produced by a finite grid) give nan. -/
def arctan2 : Num → Num → Num
  | fin y, fin x => fin (Complex.arg ⟨x, y⟩)
  | _, _ => nan

end Num

namespace Np

/-- All indices of an array of the given shape, in row-major order. -/
def indices : List ℕ → List (List ℕ)
  | [] => [[]]
  | n :: s => (List.range n).flatMap (fun i => (indices s).map (i :: ·))

/-- `np.max(a)`: nan if an entry is; `ValueError` for an empty array. -/
def amax (a : Arr Num) : Py Num :=
  match (indices a.shape).map a.get with
  | [] => .error .valueError
  | x :: xs => .ok (xs.foldl Num.max x)

end Np

open Np

/-- `assert c`. -/
def pyAssert (c : Prop) : Py Unit := if c then .ok () else .error .assertionError

namespace Param

/-- `((self.xxp**2 + (self.yyp / q) ** 2)) ** 0.5` (growing_disk.py:61-62, 101-102, 164-165, 214-215). -/
def ellRadius (p : Param) (q : Arr Num) : Py (Arr Num) := do
  let yq ← div p.yyp q
  let rr2 ← add (map Num.sq p.xxp) (map Num.sq yq)
  .ok (map Num.sqrt rr2)

/-- `linear_interpolate_t(*lims)[:, np.newaxis, np.newaxis]`. -/
def interpT3 (p : Param) (lims : ℝ × ℝ) : Py (Arr Num) := do
  let f ← p.linearInterpolateT lims.1 lims.2
  getitem [.all, .na, .na] f

end Param

namespace GrowingDisk

/-- `set_p_x_t` (growing_disk.py:30-68). -/
def setPxt (p : Param) (qLims rcLims alphaLims : ℝ × ℝ) : Py Param := do
  pyAssert (qLims.1 > 0.0 ∧ qLims.2 > 0.0)
  pyAssert (rcLims.1 > 0.0 ∧ rcLims.2 > 0.0)
  pyAssert (alphaLims.1 ≥ 0.0 ∧ alphaLims.2 ≥ 0.0)
  let q ← p.interpT3 qLims
  let rc ← p.interpT3 rcLims
  let alpha ← p.interpT3 alphaLims
  let rr ← p.ellRadius q
  let s ← add rr rc
  let logRho ← mul (map Num.neg alpha) (map Num.log s)
  let w ← add logRho p.logDxDy
  let logNorm ← logsumexp [1, 2] w
  let r ← sub (T logRho) logNorm
  let r ← moveaxis [0] [-1] (T r)          -- np.rollaxis(log_rho, 0, 3)
  .ok { p with logPxt := some r }

/-- Setting to `out` the entries beyond it (growing_disk.py:106-110, 229-234): above when the
quantity increases outwards, below otherwise. -/
def clipOut (increasing : Prop) (out t : Num) : Num :=
  if increasing then (if out.lt t then out else t) else (if t.lt out then out else t)

/-- `set_t_dep` (growing_disk.py:70-114). -/
def setTDep (p : Param) (q alpha tIn tOut tMin tMax : ℝ) : Py Param := do
  pyAssert (q > 0.0)
  pyAssert (alpha ≥ 0.0)
  pyAssert (tMin ≥ 0.1)
  pyAssert (tMax ≤ 13.0)
  pyAssert (tIn ≥ tMin ∧ tIn ≤ tMax)
  pyAssert (tOut ≥ tMin ∧ tOut ≤ tMax)
  let rr ← p.ellRadius (scalar (.fin q))
  let m ← amax (map Num.abs p.xxp)
  let f ← div rr (scalar m)
  let t := map (fun x => Num.fin tIn + Num.fin (tOut - tIn) * Num.rpow x (.fin alpha)) f
  let t := map (clipOut (tIn ≤ tOut) (.fin tOut)) t
  { p with tDep := some t }.setPztx

/-- `set_mu_v` (growing_disk.py:116-169). -/
def setMuV (p : Param) (qLims rmaxLims vmaxLims : ℝ × ℝ) : Py Param := do
  pyAssert (qLims.1 > 0.0 ∧ qLims.2 > 0.0)
  pyAssert ((0 ≤ vmaxLims.1 ∧ 0 ≤ vmaxLims.2) ∨ (vmaxLims.1 ≤ 0 ∧ vmaxLims.2 ≤ 0))
  let q ← p.linearInterpolateT qLims.1 qLims.2
  let rmax ← p.linearInterpolateT rmaxLims.1 rmaxLims.2
  let vmax ← p.linearInterpolateT vmaxLims.1 vmaxLims.2
  let rc := map (fun r => Num.fin 2.0 * r) rmax
  let rs ← add rmax rc
  let k ← mul vmax (map (fun r => Num.npow r 3) rs)
  let k ← div k rmax
  let q ← getitem [.all, .na, .na] q
  let rc ← getitem [.all, .na, .na] rc
  let k ← getitem [.all, .na, .na] k
  let yq ← div p.yyp q
  let th ← bop Num.arctan2 yq p.xxp
  let rr ← p.ellRadius q
  let a ← mul k rr
  let d ← add rr rc
  let a ← div a (map (fun r => Num.npow r 3) d)
  let mu ← mul a (map Num.cos th)
  .ok { p with muV := some mu }

/-- `set_sig_v` (growing_disk.py:171-239). `sigma_max` and `sigma_min` are never used. -/
def setSigV (p : Param) (qLims alphaLims inLims outLims : ℝ × ℝ) : Py Param := do
  pyAssert (qLims.1 > 0.0 ∧ qLims.2 > 0.0)
  pyAssert (alphaLims.1 ≥ 0.0 ∧ alphaLims.2 ≥ 0.0)
  pyAssert (inLims.1 > 0.0 ∧ inLims.2 > 0.0)
  pyAssert (outLims.1 > 0.0 ∧ outLims.2 > 0.0)
  let q ← p.interpT3 qLims
  let alpha ← p.interpT3 alphaLims
  let sIn ← p.interpT3 inLims
  let sOut ← p.interpT3 outLims
  let rr ← p.ellRadius q
  let d ← sub sOut sIn
  let m ← amax (map Num.abs p.xxp)
  let f ← div rr (scalar m)
  let pw ← bop Num.rpow f alpha
  let a ← mul d pw
  let sigma ← add sIn a
  let nt ← p.cube.getVariableSize ['t']
  -- the loop over ages of lines 228-233
  let sigma : Arr Num := ⟨sigma.shape, fun i =>
    let o := sOut.get [i.getD 0 0, 0, 0]
    if i.getD 0 0 < nt then clipOut ((sIn.get [i.getD 0 0, 0, 0]).lt o) o (sigma.get i) else sigma.get i⟩
  .ok { p with sigV := some sigma }

end GrowingDisk

/-- A `Stream`: a parametric component with the attribute `theta_lims`. -/
structure Stream where
  base : Param
  thetaLims : Option (ℝ × ℝ)

namespace Stream

/-- `Stream(cube, center, rotation)` (inherits `ParametricComponent.__init__`). -/
def init (f2 : ℝ) (cube : IFUCube) (center : ℝ × ℝ) (rotation : ℝ) : Py Stream := do
  let p ← Param.init f2 cube center rotation
  .ok ⟨p, none⟩

/-- Entry of `np.linspace(a, b, n)`. -/
def linspaceR (a b : ℝ) (n k : ℕ) : ℝ := a + k * ((b - a) / (n - 1 : ℝ))

/-- Log probability of the pixel in one coordinate for every sample point (stream.py:67-73, 74-81);
the stacked array is handled as its two halves. -/
def logPix (coord mu : Arr Num) (sig : ℝ) (d : Num) : Py (Arr Num) := do
  let c ← getitem [.all, .all, .na] coord
  let hi ← add c (scalar (d / .fin 2.0))
  let lo ← sub c (scalar (d / .fin 2.0))
  let hi ← normLogcdf mu (scalar (.fin sig)) hi
  let lo ← normLogcdf mu (scalar (.fin sig)) lo
  logDiff hi lo

/-- `set_p_x_t` (stream.py:28-91). -/
def setPxt (s : Stream) (theta muR : ℝ × ℝ) (sig : ℝ) (nsmp : ℕ) : Py Stream := do
  pyAssert (min theta.1 theta.2 ≥ -Real.pi)
  pyAssert (max theta.1 theta.2 ≤ Real.pi)
  let p := s.base
  let smp := linspaceR theta.1 theta.2 nsmp
  let muRs : ℕ → Num := fun k => .fin muR.1 + .fin (muR.2 - muR.1) *
    (.fin (smp k - theta.1) / .fin (theta.2 - theta.1))
  let muX := vec nsmp (fun k => muRs k * .fin (Real.cos (smp k)))
  let muY := vec nsmp (fun k => muRs k * .fin (Real.sin (smp k)))
  let ts ← p.cube.getVariableValues ['t']
  let nt ← IFUCube.pyLen ts
  let lx ← logPix p.xxp muX sig p.cube.dx
  let ly ← logPix p.yyp muY sig p.cube.dy
  let l ← add lx ly
  let l ← logsumexp [-1] l
  let l ← isub l (logsumexpAll l)
  let l ← isub l p.logDxDy
  let l ← broadcastTo (nt :: l.shape) l
  let l ← moveaxis [0] [-1] l
  .ok { base := { p with logPxt := some l }, thetaLims := some theta }

/-- `set_t_dep` (stream.py:93-101). -/
def setTDep (s : Stream) (tDep : ℝ) : Py Stream := do
  let p ← { s.base with tDep := some (full [s.base.cube.nx, s.base.cube.ny] (.fin tDep)) }.setPztx
  .ok { s with base := p }

/-- Mean velocity at angle `th` (stream.py:110-123): the three assignments in order. -/
def muAt (lo hi minTh maxTh : ℝ) (th : Num) : Num :=
  if (Num.fin minTh).lt th ∧ th.lt (.fin maxTh) then
    (th - .fin minTh) / .fin (maxTh - minTh) * .fin (hi - lo) + .fin lo
  else if (Num.fin maxTh).le th then .fin hi
  else if th.le (.fin minTh) then .fin lo
  else .fin 0

/-- `set_mu_v` (stream.py:103-127). -/
def setMuV (s : Stream) (lims : ℝ × ℝ) : Py Stream := do
  let p := s.base
  let th ← bop Num.arctan2 p.yyp p.xxp
  let theta ← Param.attr s.thetaLims
  let (lo, hi) := if theta.1 < theta.2 then (lims.1, lims.2) else (lims.2, lims.1)
  let mu := map (muAt lo hi (min theta.1 theta.2) (max theta.1 theta.2)) th
  let ts ← p.cube.getVariableValues ['t']
  let nt ← IFUCube.pyLen ts
  let mu ← broadcastTo (nt :: mu.shape) mu
  .ok { s with base := { p with muV := some mu } }

/-- `set_sig_v` (stream.py:129-138); `par_dims[1]` is the number of ages. -/
def setSigV (s : Stream) (sigV : ℝ) : Py Stream := do
  let p := s.base
  let nt ← IFUCube.pyLen p.cube.ssps.tCents
  .ok { s with base := { p with sigV := some (full [nt, p.cube.nx, p.cube.ny] (.fin sigV)) } }

end Stream
end PKM
