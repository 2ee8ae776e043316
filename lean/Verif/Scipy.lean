import Verif.Np
import Mathlib.Probability.Distributions.Gaussian.Real
import Mathlib.Probability.Distributions.Beta

/-!
# The part of `scipy.stats` used by `components/parametric.py`

`stats.norm` and `stats.beta` are modelled by the distributions of Mathlib: their `logcdf` is the
logarithm of the measure of `(-inf, x]`.  As in scipy, a location-scale distribution evaluates the
standard one at `(x - loc) / scale`, and invalid parameters (`scale <= 0`, shape parameters `<= 0`)
give nan.  Simplification: exact values, no underflow of small probabilities; a distribution
function evaluated at an infinite or nan argument is nan (no caller does this for a finite grid).
-/

open scoped Classical
open MeasureTheory ProbabilityTheory

noncomputable section

namespace PKM
open Np

/-- Standard normal distribution function. -/
def stdPhi (x : ℝ) : ℝ := (gaussianReal 0 1).real (Set.Iic x)

/-- `stats.norm.logcdf(z)` of the standard normal. -/
def normLogcdf01 : Num → Num
  | .fin z => Num.lg (stdPhi z)
  | _ => .nan

/-- The argument check `scale > 0` of scipy's location-scale families. -/
def scaleOk : Num → Prop
  | .fin s => 0 < s
  | _ => False

/-- `stats.norm(loc, scale).logcdf(x)` with broadcasting (parametric.py:196-198, 272-274). -/
def normLogcdf (loc scale x : Arr Num) : Py (Arr Num) := do
  let d ← sub x loc
  let z ← div d scale
  bop (fun z s => if scaleOk s then normLogcdf01 z else .nan) z scale

/-- Distribution function of the beta distribution with shape parameters `a`, `b`. -/
def betaCdf (a b x : ℝ) : ℝ := (betaMeasure a b).real (Set.Iic x)

/-- `stats.beta(a, b, loc, scale).logcdf(x)` for one `x` (parametric.py:107, 121). -/
def betaLogcdf (a b : ℝ) (loc scale x : Num) : Num :=
  match (x - loc) / scale with
  | .fin z => if 0 < a ∧ 0 < b ∧ scaleOk scale then Num.lg (betaCdf a b z) else .nan
  | _ => .nan

/-- Quantile function of the beta distribution. -/
def betaPpf (a b q : ℝ) : ℝ := sInf {x : ℝ | 0 ≤ x ∧ q ≤ betaCdf a b x}

/-- `stats.beta(a, b, loc, scale).ppf(q)` for one `q` (parametric.py:107-108). -/
def betaPpfNum (a b : ℝ) (loc scale : Num) (q : ℝ) : Num :=
  if 0 < a ∧ 0 < b ∧ scaleOk scale ∧ 0 ≤ q ∧ q ≤ 1 then Num.fin (betaPpf a b q) * scale + loc
  else .nan

/-- `special.logsumexp(np.array([hi, lo]).T, -1, b=[1, -1]).T`: `log(exp(hi) - exp(lo))`
(parametric.py:122-123, 199-200, 275-276). -/
def logDiff (hi lo : Arr Num) : Py (Arr Num) := do
  let s ← stack [hi, lo]
  let r ← logsumexpB [-1] (vec 2 (fun i => if i = 0 then .fin 1 else .fin (-1))) (T s)
  .ok (T r)

end PKM
