import Verif.Spec
import Verif.Gauss

/-!
# Specification of parametric components

What a component with age distribution `pt`, age dependent surface density `px`, metallicity
distribution `pz` and Gaussian velocities means, on a grid.  Nothing here refers to the code.
-/

open scoped Classical
open MeasureTheory

noncomputable section

namespace PKM

/-- The ingredients of a parametric component, per bin: densities of age, of position given age, of
metallicity given age and position, mean and dispersion of velocity given age and position. -/
structure Ingredients where
  pt : ℕ → ℝ
  px : ℕ → ℕ → ℕ → ℝ
  pz : ℕ → ℕ → ℕ → ℕ → ℝ
  mu : ℕ → ℕ → ℕ → ℝ
  sig : ℕ → ℕ → ℕ → ℝ

namespace Ingredients
variable (m : Ingredients) (g : Grid)

/-- Probability of the age bin. -/
def probT (c : Cell) : ℝ := m.pt c.t * width g.t c.t
/-- Probability of the pixel given the age. -/
def probX (c : Cell) : ℝ := m.px c.t c.x c.y * (width g.x c.x * width g.y c.y)
/-- Probability of the metallicity bin given age and pixel. -/
def probZ (c : Cell) : ℝ := m.pz c.t c.x c.y c.z * width g.z c.z
/-- Probability of the velocity bin given age and pixel: the Gaussian measure of the bin. -/
def probV (c : Cell) : ℝ :=
  (normal (m.mu c.t c.x c.y) (m.sig c.t c.x c.y)).real (Set.Ioc (g.v c.v) (g.v (c.v + 1)))

/-- Joint probability of age, position and metallicity: `p(t) p(x|t) p(z|t,x)`. -/
def probTXZ (c : Cell) : ℝ := m.probT g c * m.probX g c * m.probZ g c

/-- Joint probability including velocity, `p(t) p(x|t) p(v|t,x) p(z|t,x)`, restricted to the
velocity grid. -/
def joint (c : Cell) : ℝ := m.probTXZ g c * m.probV g c

/-- A joint probability with the distribution of `(t, x, z)` and no velocity information (velocity is
uniform over the bins): used only for marginals without velocity. -/
def spread (c : Cell) : ℝ := m.probTXZ g c / g.nv

/-- Sum over the bins of age, position and metallicity. -/
def sumTXZ (g : Grid) (f : Cell → ℝ) : ℝ :=
  ∑ t : Fin g.nt, ∑ x : Fin g.nx, ∑ y : Fin g.ny, ∑ z : Fin g.nz, f ⟨t, 0, x, y, z⟩

/-- `p(t) p(x|t) p(z|t,x)`, or this times the light `L(t,z)` and normalised. -/
def weightTXZ (L : ℕ → ℕ → ℝ) (lw : Bool) (c : Cell) : ℝ :=
  if lw then L c.t c.z * m.probTXZ g c / sumTXZ g (fun d => L d.t d.z * m.probTXZ g d)
  else m.probTXZ g c

/-- `p(t) p(x|t) p(v|t,x) p(z|t,x)` on the velocity grid, or this times the light and normalised. -/
def weight (L : ℕ → ℕ → ℝ) (lw : Bool) (c : Cell) : ℝ :=
  if lw then L c.t c.z * m.joint g c / g.sumCells (fun d => L d.t d.z * m.joint g d)
  else m.joint g c

/-- What the marginal distribution `w` is: the sum over the other variables. Distributions that
contain the velocity are those truncated to the grid, the others know nothing about it. -/
def marginal (L : ℕ → ℕ → ℝ) (lw : Bool) (w : PyStr) (c : Cell) : ℝ :=
  if 'v' ∈ w then g.sumCells (fun d => if coords w d = coords w c then m.weight g L lw d else 0)
  else sumTXZ g (fun d => if coords w d = coords w c then m.weightTXZ g L lw d else 0)

/-- All ingredients are distributions: non-negative, and normalised given what they depend on. -/
structure Normalised : Prop where
  pt : ∀ t, 0 ≤ m.pt t
  px : ∀ t x y, 0 ≤ m.px t x y
  pz : ∀ t x y z, 0 ≤ m.pz t x y z
  sig : ∀ t x y, 0 < m.sig t x y
  sumT : ∑ t : Fin g.nt, m.pt t * width g.t t = 1
  sumX : ∀ t < g.nt, ∑ x : Fin g.nx, ∑ y : Fin g.ny, m.px t x y * (width g.x x * width g.y y) = 1
  sumZ : ∀ t < g.nt, ∀ x < g.nx, ∀ y < g.ny, ∑ z : Fin g.nz, m.pz t x y z * width g.z z = 1

end Ingredients
end PKM
