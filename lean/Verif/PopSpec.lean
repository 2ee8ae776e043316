import Verif.ParamSpec

/-!
# Specification of mixed populations

The members of a mixture may describe their stars in different ways: by a table of probabilities of all cells
(plain components), or by tables in age, position and metallicity with normal velocities (parametric components).
A `Pop` says what both have in common.  Nothing here refers to the code.
-/

open scoped Classical
open MeasureTheory

noncomputable section

namespace PKM

/-- A population of stars on a grid. -/
structure Pop where
  /-- Probability of a cell. -/
  joint : Cell → ℝ
  /-- `vel φ c`: probability of the age, pixel and metallicity of `c`, times the expectation of `φ(velocity)` of
  those stars. -/
  vel : (ℝ → ℝ) → Cell → ℝ

/-- The population with a table of densities `ρ`: velocities are those of the bin centres. -/
def tablePop (g : Grid) (ρ : Cell → ℝ) : Pop where
  joint c := ρ c * g.cellVolume c
  vel φ c := ∑ v : Fin g.nv, φ (centre g.v v) * (ρ { c with v := v } * g.cellVolume { c with v := v })

/-- The population with the ingredients `m`: velocities are normal and not confined to the grid. -/
def Ingredients.pop (m : Ingredients) (g : Grid) : Pop where
  joint := m.joint g
  vel φ c := m.probTXZ g c * ∫ v, φ v ∂(normal (m.mu c.t c.x c.y) (m.sig c.t c.x c.y))

/-- The union of `n` populations with weights `ω`. -/
def mixPop (n : ℕ) (ω : ℕ → ℝ) (q : ℕ → Pop) : Pop where
  joint c := ∑ i : Fin n, ω i * (q i).joint c
  vel φ c := ∑ i : Fin n, ω i * (q i).vel φ c

namespace Pop
variable (q : Pop) (g : Grid) (L : ℕ → ℕ → ℝ) (lw : Bool)

/-- Weight of a star: its light, or 1. -/
def wt (L : ℕ → ℕ → ℝ) (lw : Bool) (c : Cell) : ℝ := if lw then L c.t c.z else 1

/-- Probability of age, pixel and metallicity. -/
def stars (c : Cell) : ℝ := q.vel (fun _ => 1) c

/-- Total mass or light of the stars that have the values of `w` at `c`; if the velocity is among the variables `w`
only stars in the velocity range of the grid count. -/
def amount (w : PyStr) (c : Cell) : ℝ :=
  if 'v' ∈ w then g.sumCells (fun d => if coords w d = coords w c then wt L lw d * q.joint d else 0)
  else Ingredients.sumTXZ g (fun d => if coords w d = coords w c then wt L lw d * q.stars d else 0)

/-- Total light that `amount w` distributes. -/
def lightOf (w : PyStr) : ℝ :=
  if 'v' ∈ w then g.sumCells (fun d => L d.t d.z * q.joint d) else Ingredients.sumTXZ g (fun d => L d.t d.z * q.stars d)

/-- The marginal distribution `w`. -/
def marginal (w : PyStr) (c : Cell) : ℝ := q.amount g L lw w c / (if lw then q.lightOf g L w else 1)

/-- The distribution of `a` given `b`; nan where there are no stars. -/
def cond (a b : PyStr) (c : Cell) : Num :=
  if q.marginal g L lw b c = 0 then .nan else .fin (q.marginal g L lw (unionStr a b) c / q.marginal g L lw b c)

/-- Expectation of `φ(k)`, for a quantity `k`, over the stars that have the values of `b` at `c`. -/
def expect (b : PyStr) (k : Char) (φ : ℝ → ℝ) (c : Cell) : ℝ :=
  (if k = 'v' then Ingredients.sumTXZ g (fun d => if coords b d = coords b c then wt L lw d * q.vel φ d else 0)
   else if 'v' ∈ b then g.sumCells (fun d => if coords b d = coords b c then wt L lw d * (φ (g.value k d) * q.joint d) else 0)
   else Ingredients.sumTXZ g (fun d => if coords b d = coords b c then wt L lw d * (φ (g.value k d) * q.stars d) else 0)) /
  q.amount g L lw b c

end Pop
end PKM
