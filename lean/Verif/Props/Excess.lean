import Verif.Gauss
import Verif.Props.Moments

/-!
# C17, continued: the moments of the normal law subtracted by `get_excess_central_moment`
-/

open scoped Classical
open MeasureTheory ProbabilityTheory

noncomputable section

namespace PKM
open Np Component

/-- For all orders `j ≥ 1`, `get_normalised_central_moment_normal(j)` is the central moment of order `j` of every normal law, over the
`j`-th power of its standard deviation. -/
theorem C17_normal_moments (f2 : ℝ) (j : ℕ) (hj : 1 ≤ j) (μ σ : ℝ) (hσ : 0 < σ) :
    Obj.normalisedCentralMomentNormal f2 j = (∫ x, (x - μ) ^ j ∂(gaussianReal μ (σ ^ 2).toNNReal)) / σ ^ j := by
  have e : ∫ x, (x - μ) ^ j ∂(gaussianReal μ (σ ^ 2).toNNReal) = σ ^ j * ∫ x, x ^ j ∂(gaussianReal 0 1) := by
    rw [show gaussianReal μ (σ ^ 2).toNNReal = normal μ σ from rfl, ← normal_map μ σ, integral_map (by fun_prop) (by fun_prop), ← integral_const_mul]
    refine integral_congr_ae (.of_forall fun x => ?_)
    show (σ * x + μ - μ) ^ j = _
    rw [add_sub_cancel_right, mul_pow]
  rw [e, mul_div_cancel_left₀ _ (pow_pos hσ j).ne']
  unfold Obj.normalisedCentralMomentNormal
  rcases Nat.even_or_odd' j with ⟨m, rfl | rfl⟩
  · rw [if_pos (by omega), if_neg (by omega), stdMoment_even]
  · rw [if_neg (by omega), stdMoment_odd (by omega)]

/-- The excess moment of order `j ≥ 1` is the normalised moment less that of the normal law; of odd orders it is the normalised moment. -/
theorem C17_excess (f2 : ℝ) (o : Obj) (w : PyStr) (j : ℕ) (hj : 1 ≤ j) (lw : Bool) (r : Arr Num)
    (hr : o.getNormalisedCentralMoment w j lw = .ok r) :
    ∃ x, o.getExcessCentralMoment f2 w j lw = .ok x ∧ (j = 4 → o.getExcessKurtosis f2 w lw = .ok x) ∧ x.shape = r.shape ∧
      ∀ i, InBox r.shape i → x.get i = r.get i - .fin (∫ u, u ^ j ∂(gaussianReal 0 1)) ∧ (j % 2 = 1 → x.get i = r.get i) := by
  obtain ⟨x, hx, hx1, hx2⟩ := bop_scalar_right (· - ·) r (.fin (Obj.normalisedCentralMomentNormal f2 j))
  have h : o.getExcessCentralMoment f2 w j lw = .ok x := by
    simp only [Obj.getExcessCentralMoment, hr, Py.ok_bind, Np.sub, hx]
  have e := C17_normal_moments f2 j hj 0 1 one_pos
  simp only [sub_zero, one_pow, div_one, Real.toNNReal_one] at e
  refine ⟨x, h, fun e => by subst e; exact h, hx1, fun i hi => ⟨by rw [hx2 i hi, e], fun ho => ?_⟩⟩
  rw [hx2 i hi, e, stdMoment_odd ho]
  beta_reduce
  cases r.get i <;> first | rfl | exact congrArg Num.fin (sub_zero _)

/-- If the normalised moment raises an exception, so does the excess moment. -/
theorem C17_excess_error (f2 : ℝ) (o : Obj) (w : PyStr) (j : ℕ) (lw : Bool) (e : PyErr) (he : o.getNormalisedCentralMoment w j lw = .error e) :
    o.getExcessCentralMoment f2 w j lw = .error e := by
  simp only [Obj.getExcessCentralMoment, he]; rfl

/-- Sixth moment: 15 is subtracted. -/
example : ∫ u, u ^ 6 ∂(gaussianReal 0 1) = 15 := by
  have := stdMoment_even 3
  norm_num [Nat.doubleFactorial] at this
  exact this

end PKM
