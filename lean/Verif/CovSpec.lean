import Verif.PopSpec

/-!
# Specification of covariances of populations

What covariances of two quantities of the stars of a population are.  Nothing here refers to the code.
-/

open scoped Classical

noncomputable section

namespace PKM
namespace Pop
variable (q : Pop) (g : Grid) (L : ℕ → ℕ → ℝ) (lw : Bool)

/-- Mean of the quantity `k` of the stars that have the values of `b` at `c`. -/
def mean (b : PyStr) (k : Char) (c : Cell) : ℝ := q.expect g L lw b k (fun x => x) c

/-- Their central moment of order `j`. -/
def central (b : PyStr) (k : Char) (j : ℕ) (c : Cell) : ℝ := q.expect g L lw b k (fun x => (x - q.mean g L lw b k c) ^ j) c

/-- Their variance. -/
def variance (b : PyStr) (k : Char) (c : Cell) : ℝ := q.central g L lw b k 2 c

/-- Expectation of a function of age, pixel and metallicity. -/
def expectOf (b : PyStr) (f : Cell → ℝ) (c : Cell) : ℝ :=
  (if 'v' ∈ b then g.sumCells (fun d => if coords b d = coords b c then wt L lw d * (f d * q.joint d) else 0)
   else Ingredients.sumTXZ g (fun d => if coords b d = coords b c then wt L lw d * (f d * q.stars d) else 0)) /
  q.amount g L lw b c

/-- Covariance of two quantities, neither of them the velocity. -/
def cov (b : PyStr) (k k' : Char) (c : Cell) : ℝ :=
  q.expectOf g L lw b (fun d => (g.value k d - q.mean g L lw b k c) * (g.value k' d - q.mean g L lw b k' c)) c

/-- Covariance of the velocity and another quantity. -/
def velCov (b : PyStr) (k : Char) (c : Cell) : ℝ :=
  Ingredients.sumTXZ g (fun d => if coords b d = coords b c then
    wt L lw d * ((g.value k d - q.mean g L lw b k c) * q.vel (fun v => v - q.mean g L lw b 'v' c) d) else 0) /
  q.amount g L lw b c

/-- What the code computes for the velocity and another quantity: stars in the velocity range of the grid only,
with the velocities of the bin centres, but with the means of all stars; divided by the total light of the stars in the
velocity range. -/
def binCov (b : PyStr) (k : Char) (c : Cell) : ℝ :=
  g.sumCells (fun d => if coords b d = coords b c then
    wt L lw d * ((centre g.v d.v - q.mean g L lw b 'v' c) * (g.value k d - q.mean g L lw b k c) * q.joint d) else 0) /
  (if lw then q.lightOf g L ['v'] else 1) / q.marginal g L lw b c

/-- Fraction of the stars that have the values of `b` at `c` for which `k` (age or metallicity) is in its bin `i`. -/
def binShare (b : PyStr) (k : Char) (c : Cell) (i : ℕ) : ℝ := q.expectOf g L lw b (fun d => if binIdx k d = i then 1 else 0) c

end Pop
end PKM
