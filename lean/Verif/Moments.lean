import Verif.Component
import Mathlib.Data.Nat.Factorial.DoubleFactorial

/-!
# Model of the moment methods of `components.base.Component` (base.py:179-787)

`getMean`, `getNoncentralMoment`, `getCentralMoment` act on a `Self`.  The methods derived from them
(variance, dispersion, normalised and excess moments, covariance, correlation, L-moments) only call
public methods, so they are written for an `Obj`, the public interface; `Mixture` inherits them.
-/

open scoped Classical

noncomputable section

namespace PKM
open Np

/-- The public interface used by the derived methods. -/
structure Obj where
  /-- `self.cube` -/
  cube : IFUCube
  /-- `self.get_p(which_dist, density, light_weighted)` -/
  getP : PyStr → Bool → Bool → Py (Arr Num)
  /-- `self.get_mean(which_dist, light_weighted)` -/
  getMean : PyStr → Bool → Py (Arr Num)
  /-- `self.get_central_moment(which_dist, j, light_weighted)` -/
  getCentralMoment : PyStr → ℕ → Bool → Py (Arr Num)

namespace Component

/-- `which_dist.split("_")[0]` (base.py:206, 254, 302, 578). -/
def headVar (w : PyStr) : PyStr := (PyStr.split '_' w).headD []

/-- `which_dist.split("_")[1]` (base.py:311, 584); `IndexError` without an underscore. -/
def condVars (w : PyStr) : Py PyStr :=
  match PyStr.split '_' w with
  | _ :: b :: _ => .ok b
  | _ => .error .indexError

/-- `a, b = mu` on an array: unpacking iterates over the first axis (base.py:270, 308). -/
def unpack2 (mu : Arr Num) : Py (Arr Num × Arr Num) :=
  match mu.shape with
  | n :: s => if n = 2 then .ok (⟨s, fun i => mu.get (0 :: i)⟩, ⟨s, fun i => mu.get (1 :: i)⟩)
      else .error .valueError
  | [] => .error .typeError

/-- The nested function of `get_mean` (base.py:209-224). -/
def meanDefault (s : Self) (w : PyStr) (lw : Bool) : Py (Arr Num) := do
  let p ← getP s w false lw
  if headVar w ∈ [['t'], ['v'], ['z']] then do
    let var ← s.cube.getVariableValues (headVar w)
    let r ← mul (T var) (T p)
    sum [0] (T r)
  else if headVar w = ['x'] then do
    let p1 ← sum [1] p
    let p2 ← sum [0] p
    let m1 ← mul s.cube.x (T p1)
    let m1 ← sum [-1] m1
    let m2 ← mul s.cube.y (T p2)
    let m2 ← sum [-1] m2
    stack [T m1, T m2]
  else .error .assertionError

/-- `get_mean` (base.py:179-231). -/
def getMean (s : Self) (w : PyStr) (lw : Bool) : Py (Arr Num) :=
  if (headVar w).length = 1 then
    match s.meanHC w with
    | some f => f lw
    | none => meanDefault s w lw
  else .error .assertionError

/-- `np.power(val - mu[na].T, j)` (base.py:261, 271-272). -/
def powDelta (val mu : Arr Num) (j : ℕ) : Py (Arr Num) := do
  let m ← getitem [.na] mu
  let d ← sub val (T m)
  .ok (map (fun x => x.npow j) d)

/-- The nested function of `get_noncentral_moment` (base.py:257-274), for `j ≥ 0`. -/
def momentDefault (s : Self) (w : PyStr) (j : ℕ) (mu : Arr Num) (lw : Bool) : Py (Arr Num) := do
  let p ← getP s w false lw
  if headVar w ∈ [['t'], ['v'], ['z']] then do
    let val ← s.cube.getVariableValues (headVar w)
    let q ← powDelta val mu j
    let r ← mul q (T p)
    sum [0] (T r)
  else if headVar w = ['x'] then do
    let p1 ← sum [1] p
    let p2 ← sum [0] p
    let (mu1, mu2) ← unpack2 mu
    let q1 ← powDelta s.cube.x mu1 j
    let q2 ← powDelta s.cube.y mu2 j
    let m1 ← mul (T q1) p1
    let m1 ← sum [0] m1
    let m2 ← mul (T q2) p2
    let m2 ← sum [0] m2
    stack [m1, m2]
  else .error .assertionError

/-- `get_noncentral_moment` (base.py:233-282). -/
def getNoncentralMoment (s : Self) (w : PyStr) (j : ℕ) (mu : Arr Num) (lw : Bool) : Py (Arr Num) :=
  if (headVar w).length = 1 then
    match s.ncmHC w with
    | some f => f j mu lw
    | none => momentDefault s w j mu lw
  else .error .assertionError

/-- `get_central_moment` (base.py:284-315). The volume element `dc` of lines 310-312 is computed
and not used. -/
def getCentralMoment (s : Self) (w : PyStr) (j : ℕ) (lw : Bool) : Py (Arr Num) :=
  if (headVar w).length = 1 then do
    let mu ← (if headVar w ∈ [['t'], ['v'], ['z']] then getMean s w lw
      else if headVar w = ['x'] then do
        let m ← getMean s w lw
        let (mu1, mu2) ← unpack2 m
        stack [mu1, mu2]
      else .error .assertionError : Py (Arr Num))
    if '_' ∈ w then do
      let b ← condVars w
      let _dc ← s.cube.constructVolumeElement b
      getNoncentralMoment s w j mu lw
    else getNoncentralMoment s w j mu lw
  else .error .assertionError

/-- The object seen by the derived methods. -/
def obj (s : Self) : Obj where
  cube := s.cube
  getP := getP s
  getMean := getMean s
  getCentralMoment := getCentralMoment s

end Component

namespace Obj

/-- `get_variance` (base.py:317-333). -/
def getVariance (o : Obj) (w : PyStr) (lw : Bool) : Py (Arr Num) := o.getCentralMoment w 2 lw

/-- `get_dispersion` (base.py:335-352). -/
def getDispersion (o : Obj) (w : PyStr) (lw : Bool) : Py (Arr Num) := do
  let v ← o.getCentralMoment w 2 lw
  .ok (map Num.sqrt v)

/-- `get_normalised_central_moment` (base.py:354-377). -/
def getNormalisedCentralMoment (o : Obj) (w : PyStr) (j : ℕ) (lw : Bool) : Py (Arr Num) := do
  let c ← o.getCentralMoment w j lw
  let d ← o.getDispersion w lw
  div c (map (fun x => x.npow j) d)

/-- `get_normalised_central_moment_normal` (base.py:379-384). `f2` is the value that the installed
scipy returns for `factorial2(-1)` (1 or 0 depending on the version), used for `j = 0` only. -/
def normalisedCentralMomentNormal (f2 : ℝ) (j : ℕ) : ℝ :=
  if j % 2 = 0 then (if j = 0 then f2 else ((j - 1).doubleFactorial : ℝ)) else 0

/-- `get_excess_central_moment` (base.py:386-392). -/
def getExcessCentralMoment (f2 : ℝ) (o : Obj) (w : PyStr) (j : ℕ) (lw : Bool) : Py (Arr Num) := do
  let c ← o.getNormalisedCentralMoment w j lw
  sub c (scalar (.fin (normalisedCentralMomentNormal f2 j)))

/-- `get_skewness` (base.py:394-412). -/
def getSkewness (o : Obj) (w : PyStr) (lw : Bool) : Py (Arr Num) := o.getNormalisedCentralMoment w 3 lw
/-- `get_kurtosis` (base.py:414-432). -/
def getKurtosis (o : Obj) (w : PyStr) (lw : Bool) : Py (Arr Num) := o.getNormalisedCentralMoment w 4 lw
/-- `get_excess_kurtosis` (base.py:434-452). -/
def getExcessKurtosis (f2 : ℝ) (o : Obj) (w : PyStr) (lw : Bool) : Py (Arr Num) :=
  o.getExcessCentralMoment f2 w 4 lw

/-- The values used by `get_covariance` for one dependent variable (base.py:493-504): mean and bin
centres (two arrays for `x`). -/
def covVar (o : Obj) (w : PyStr) (dvar : Char) (lw : Bool) : Py (Arr Num × List (Arr Num)) := do
  let m ← o.getMean w lw
  if dvar ≠ 'x' then do
    let v ← o.cube.getVariableValues [dvar]
    .ok (m, [v])
  else do
    let x1 ← o.cube.getVariableValues ['x','1']
    let x2 ← o.cube.getVariableValues ['x','2']
    .ok (m, [x1, x2])

/-- `(values - mean[na].T).T` (base.py:506-507, 514-516). -/
def delta (val mu : Arr Num) : Py (Arr Num) := do
  let m ← getitem [.na] mu
  let d ← sub val (T m)
  .ok (T d)

/-- `p * d0 * d1` summed over the first two axes (base.py:508-509, 518-523). -/
def covSum (p d0 d1 : Arr Num) (ix0 ix1 : List Ix) : Py (Arr Num) := do
  let e0 ← getitem ix0 d0
  let q ← mul p e0
  let e1 ← getitem ix1 d1
  let q ← mul q e1
  sum [0, 1] q

/-- `get_covariance` after the distribution string has been taken apart (base.py:489-523):
`a0`, `a1` are the two dependent characters, `w0`, `w1` the strings passed to `get_mean`. -/
def covCore (o : Obj) (w : PyStr) (a0 a1 : Char) (w0 w1 : PyStr) (lw : Bool) : Py (Arr Num) := do
  let (m0, v0) ← covVar o w0 a0 lw
  let (m1, v1) ← covVar o w1 a1 lw
  let p ← o.getP w false lw
  if a0 ≠ 'x' ∧ a1 ≠ 'x' then do
    let d0 ← delta (v0.getD 0 (scalar .nan)) m0
    let d1 ← delta (v1.getD 0 (scalar .nan)) m1
    covSum p d0 d1 [.all, .na] [.na, .all]
  else if a0 = 'x' then do
    let (mx1, mx2) ← unpackRows m0
    let dx1 ← delta (v0.getD 0 (scalar .nan)) mx1
    let dx2 ← delta (v0.getD 1 (scalar .nan)) mx2
    let dn ← delta (v1.getD 0 (scalar .nan)) m1
    let p1 ← sum [1] p
    let c1 ← covSum p1 dx1 dn [.all, .na] [.na, .all]
    let p2 ← sum [0] p
    let c2 ← covSum p2 dx2 dn [.all, .na] [.na, .all]
    stack [c1, c2]
  else do
    let (mx1, mx2) ← unpackRows m1
    let dx1 ← delta (v1.getD 0 (scalar .nan)) mx1
    let dx2 ← delta (v1.getD 1 (scalar .nan)) mx2
    let dn ← delta (v0.getD 0 (scalar .nan)) m0
    let p1 ← sum [2] p
    let c1 ← covSum p1 dx1 dn [.na, .all] [.all, .na]
    let p2 ← sum [1] p
    let c2 ← covSum p2 dx2 dn [.na, .all] [.all, .na]
    stack [c1, c2]
where
  /-- `means[idx_x][0]`, `means[idx_x][1]` (base.py:514-515): `IndexError` if the first axis is
  shorter than two. -/
  unpackRows (m : Arr Num) : Py (Arr Num × Arr Num) := do
    let a ← getitem [.at 0] m
    let b ← getitem [.at 1] m
    .ok (a, b)

/-- `get_covariance` (base.py:454-523). -/
def getCovariance (o : Obj) (w : PyStr) (lw : Bool) : Py (Arr Num) :=
  if '_' ∈ w then
    match PyStr.split '_' w with
    | [dep, cond] => match dep with
      | [a0, a1] => covCore o w a0 a1 (a0 :: '_' :: cond) (a1 :: '_' :: cond) lw
      | _ => .error .valueError
    | _ => .error .valueError
  else match w with
    | [a0, a1] => covCore o w a0 a1 [a0] [a1] lw
    | _ => .error .valueError

/-- `covariance / (variance0 * variance1) ** 0.5` (base.py:548-557). -/
def corCore (o : Obj) (w w0 w1 : PyStr) (lw : Bool) : Py (Arr Num) := do
  let c ← o.getCovariance w lw
  let v0 ← o.getVariance w0 lw
  let v1 ← o.getVariance w1 lw
  let v ← mul v0 v1
  div c (map Num.sqrt v)

/-- `get_correlation` (base.py:525-558). -/
def getCorrelation (o : Obj) (w : PyStr) (lw : Bool) : Py (Arr Num) :=
  if '_' ∈ w then
    match PyStr.split '_' w with
    | [dep, cond] => match dep with
      | [a0, a1] => corCore o w (a0 :: '_' :: cond) (a1 :: '_' :: cond) lw
      | _ => .error .valueError
    | _ => .error .valueError
  else match w with
    | [a0, a1] => corCore o w [a0] [a1] lw
    | _ => .error .valueError

/-! ### L-moments -/

/-- Legendre polynomials (Bonnet's recursion), `special.legendre(n)`. -/
def legendre : ℕ → ℝ → ℝ
  | 0, _ => 1
  | 1, x => x
  | n + 2, x => ((2 * n + 3) * x * legendre (n + 1) x - (n + 1) * legendre n x) / (n + 2)

/-- A polynomial evaluated on floats: nan in, nan out (Horner's scheme multiplies by the argument).
Infinite arguments do not occur for a cumulative distribution and are mapped to nan. -/
def polyNum (P : ℝ → ℝ) : Num → Num
  | .fin r => .fin (P r)
  | _ => .nan

/-- `get_l_moment` (base.py:560-602) for an order `j`; `special.legendre` rejects `j - 1 < 0`. -/
def getLMoment (o : Obj) (w : PyStr) (j : ℤ) (lw : Bool) : Py (Arr Num) :=
  if (Component.headVar w).length = 1 then do
    let cond ← (if w.length = 1 then .ok none else (Component.condVars w).map some :
      Py (Option PyStr))
    let F ← o.getP w false lw
    let F := cumsum0 F
    let zero ← (match cond with
      | none => .ok (full [1] (.fin 0))
      | some b => do
        let s ← o.cube.getDistributionShape b
        .ok (full (1 :: s) (.fin 0)) : Py (Arr Num))
    let F ← concat0 zero F
    let F1 ← getitem [.sl 1 none] F
    let F0 ← getitem [.sl 0 (some (-1))] F
    let dF ← sub F1 F0
    if j - 1 < 0 then .error .valueError else do
    let g := map (fun f => polyNum (legendre (j - 1).toNat) (.fin 2 * f - .fin 1)) F
    let x ← o.cube.getVariableEdges (Component.headVar w)
    let y ← mul x (T g)
    let y := T y
    let y0 ← getitem [.sl 0 (some (-1))] y
    let y1 ← getitem [.sl 1 none] y
    let q ← add y0 y1
    let q ← mul (map (fun d => d / .fin 2) q) dF
    sum [0] q
  else .error .assertionError

/-- `get_l_mean` (base.py:604-623). -/
def getLMean (o : Obj) (w : PyStr) (lw : Bool) : Py (Arr Num) := o.getLMoment w 1 lw
/-- `get_l_dispersion` (base.py:625-644). -/
def getLDispersion (o : Obj) (w : PyStr) (lw : Bool) : Py (Arr Num) := o.getLMoment w 2 lw

/-- `get_normalised_l_moment` (base.py:646-671). -/
def getNormalisedLMoment (o : Obj) (w : PyStr) (j : ℤ) (lw : Bool) : Py (Arr Num) := do
  let d ← o.getLDispersion w lw
  let l ← o.getLMoment w j lw
  div l d

/-- `np.isclose(x, 0.)`: `|x| <= 1e-8`. -/
def isclose0 (x : ℝ) : Prop := |x| ≤ 1 / 10 ^ 8

/-- `get_l_moment_normal` (base.py:673-694). `ppf` is `scipy.stats.norm(0,1).ppf`. -/
def lMomentNormal (ppf : ℝ → ℝ) (j : ℤ) : Py ℝ :=
  if j - 1 < 0 then .error .valueError else
    let edg : ℕ → ℝ := fun i => (i : ℝ) / 99999
    let l := ∑ i ∈ Finset.range 99999, ppf ((edg i + edg (i + 1)) / 2) *
      legendre (j - 1).toNat (2 * ((edg i + edg (i + 1)) / 2) - 1) * (edg (i + 1) - edg i)
    .ok (if isclose0 l then 0 else l)

/-- `get_normalised_l_moment_normal` (base.py:696-708); a zero L-dispersion would give inf or nan. -/
def normalisedLMomentNormal (ppf : ℝ → ℝ) (j : ℤ) : Py Num := do
  let l ← lMomentNormal ppf j
  let l2 ← lMomentNormal ppf 2
  .ok (.fin l / .fin l2)

/-- `get_excess_l_moment` (base.py:710-733). -/
def getExcessLMoment (ppf : ℝ → ℝ) (o : Obj) (w : PyStr) (j : ℤ) (lw : Bool) : Py (Arr Num) := do
  let l ← o.getNormalisedLMoment w j lw
  let n ← normalisedLMomentNormal ppf j
  sub l (scalar n)

/-- `get_l_skewness` (base.py:735-751). -/
def getLSkewness (o : Obj) (w : PyStr) (lw : Bool) : Py (Arr Num) := o.getNormalisedLMoment w 3 lw
/-- `get_l_kurtosis` (base.py:753-769). -/
def getLKurtosis (o : Obj) (w : PyStr) (lw : Bool) : Py (Arr Num) := o.getNormalisedLMoment w 4 lw
/-- `get_excess_l_kurtosis` (base.py:771-787). -/
def getExcessLKurtosis (ppf : ℝ → ℝ) (o : Obj) (w : PyStr) (lw : Bool) : Py (Arr Num) :=
  o.getExcessLMoment ppf w 4 lw

end Obj
end PKM
