import Verif.Scipy
import Mathlib.MeasureTheory.Integral.Gamma
import Mathlib.Analysis.SpecialFunctions.Gaussian.GaussianIntegral
import Mathlib.Probability.CDF

/-! Lemmas: distribution function and moments of normal distributions. -/

open scoped Classical NNReal
open MeasureTheory ProbabilityTheory Set

noncomputable section

namespace PKM

/-- The normal distribution with mean `μ` and standard deviation `σ`. -/
def normal (μ σ : ℝ) : Measure ℝ := gaussianReal μ (σ ^ 2).toNNReal

instance (μ σ : ℝ) : IsProbabilityMeasure (normal μ σ) := by unfold normal; infer_instance

theorem normal_map (μ σ : ℝ) : (gaussianReal 0 1).map (fun u => σ * u + μ) = normal μ σ := by
  have h1 : (gaussianReal 0 1).map (fun u => σ * u + μ) =
      ((gaussianReal 0 1).map (fun u => σ * u)).map (fun u => u + μ) := by
    rw [Measure.map_map (by fun_prop) (by fun_prop)]; rfl
  rw [h1, gaussianReal_map_const_mul, gaussianReal_map_add_const]
  unfold normal
  congr 1
  · ring
  · ext; simp [sq_nonneg]

theorem stdPhi_mono : Monotone stdPhi := fun _ _ h => measureReal_mono (Iic_subset_Iic.2 h)

theorem stdPhi_nonneg (x : ℝ) : 0 ≤ stdPhi x := measureReal_nonneg

theorem stdPhi_le_one (x : ℝ) : stdPhi x ≤ 1 := measureReal_le_one

theorem normal_Iic {μ σ : ℝ} (hσ : 0 < σ) (x : ℝ) :
    (normal μ σ).real (Iic x) = stdPhi ((x - μ) / σ) := by
  rw [← normal_map, map_measureReal_apply (by fun_prop) measurableSet_Iic]
  unfold stdPhi
  congr 1
  ext u
  simp only [mem_preimage, mem_Iic, le_div_iff₀ hσ]
  constructor <;> intro h <;> nlinarith

/-- Probability of a bin as a difference of distribution functions. -/
theorem normal_Ioc {μ σ : ℝ} (hσ : 0 < σ) {a b : ℝ} (h : a ≤ b) :
    (normal μ σ).real (Ioc a b) = stdPhi ((b - μ) / σ) - stdPhi ((a - μ) / σ) := by
  rw [← normal_Iic hσ, ← normal_Iic hσ, 
    ← measureReal_diff (Iic_subset_Iic.2 h) measurableSet_Iic]
  congr 1
  ext x; simp [and_comm]

/-- Every non-empty bin has positive probability. -/
theorem normal_Ioc_pos {μ σ : ℝ} (hσ : 0 < σ) {a b : ℝ} (h : a < b) :
    0 < (normal μ σ).real (Ioc a b) := by
  have hv : (σ ^ 2).toNNReal ≠ 0 := by
    simp only [ne_eq, Real.toNNReal_eq_zero, not_le]; positivity
  rw [measureReal_def, ENNReal.toReal_pos_iff]
  refine ⟨?_, measure_lt_top _ _⟩
  rw [pos_iff_ne_zero]
  intro h0
  have := gaussianReal_absolutelyContinuous' μ hv (s := Ioc a b) h0
  simp at this
  linarith

theorem stdPhi_strictMono : StrictMono stdPhi := by
  intro a b h
  have := normal_Ioc_pos (μ := 0) (σ := 1) one_pos h
  rw [normal_Ioc one_pos h.le] at this
  simpa using this

theorem stdPhi_pos (x : ℝ) : 0 < stdPhi x :=
  (stdPhi_nonneg (x - 1)).trans_lt (stdPhi_strictMono (by linarith))

theorem stdPhi_lt_one (x : ℝ) : stdPhi x < 1 :=
  (stdPhi_strictMono (by linarith : x < x + 1)).trans_le (stdPhi_le_one _)

/-! ### Moments -/

theorem integrable_pow_std (k : ℕ) : Integrable (fun x : ℝ => x ^ k) (gaussianReal 0 1) := by
  rcases Nat.eq_zero_or_pos k with rfl | hk
  · simp
  · have h := memLp_id_gaussianReal (μ := 0) (v := 1) (k : ℝ≥0)
    have h' := h.integrable_norm_pow (p := k) (by omega)
    refine h'.mono (by fun_prop) (Filter.Eventually.of_forall fun x => ?_)
    simp

/-- Odd moments of the standard normal distribution. -/
theorem stdMoment_odd {k : ℕ} (hk : k % 2 = 1) : ∫ x, x ^ k ∂(gaussianReal 0 1) = 0 := by
  have h := gaussianReal_map_neg (μ := 0) (v := 1)
  have h1 : ∫ x, x ^ k ∂(gaussianReal 0 1) = ∫ x, (-x) ^ k ∂(gaussianReal 0 1) := by
    conv_lhs => rw [← neg_zero, ← h]
    rw [integral_map (by fun_prop) (by fun_prop)]
  have ho : Odd k := Nat.odd_iff.2 hk
  simp only [ho.neg_pow, integral_neg] at h1
  linarith

/-- Even moments of the standard normal distribution. -/
theorem stdMoment_even (m : ℕ) :
    ∫ x, x ^ (2 * m) ∂(gaussianReal 0 1) = (Nat.doubleFactorial (2 * m - 1) : ℝ) := by
  rw [integral_gaussianReal_eq_integral_smul (by simp)]
  simp only [gaussianPDFReal, smul_eq_mul, sub_zero, NNReal.coe_one, mul_one]
  have hG := Real.Gamma_nat_add_half m
  have hI := integral_rpow_mul_exp_neg_mul_rpow (p := 2) (q := 2 * m) (b := 1 / 2) (by norm_num)
    (by have : (0 : ℝ) ≤ m := by positivity
        linarith) (by norm_num)
  have e1 : ∀ x : ℝ, (√(2 * Real.pi))⁻¹ * Real.exp (-x ^ 2 / 2) * x ^ (2 * m) =
      (√(2 * Real.pi))⁻¹ * (fun y : ℝ => y ^ (2 * m) * Real.exp (-y ^ 2 / 2)) |x| := by
    intro x
    simp only [sq_abs, (even_two_mul m).pow_abs]; ring
  simp only [e1, integral_const_mul]
  rw [integral_comp_abs (f := fun y : ℝ => y ^ (2 * m) * Real.exp (-y ^ 2 / 2))]
  have e2 : ∫ x in Ioi (0 : ℝ), x ^ (2 * m) * Real.exp (-x ^ 2 / 2) =
      ∫ x in Ioi (0 : ℝ), x ^ ((2 : ℝ) * m) * Real.exp (-(1 / 2) * x ^ (2 : ℝ)) := by
    refine setIntegral_congr_fun measurableSet_Ioi fun x hx => ?_
    have e3 : x ^ ((2 : ℝ) * m) = x ^ (2 * m) := by
      rw [← Real.rpow_natCast]; push_cast; rfl
    simp only [e3, Real.rpow_two]
    congr 2; ring
  rw [e2, hI]
  have e4 : ((2 : ℝ) * m + 1) / 2 = m + 1 / 2 := by ring
  rw [e4, hG]
  have e5 : (1 / 2 : ℝ) ^ (-((2 : ℝ) * m + 1) / 2) = 2 ^ m * √2 := by
    have : (-((2 : ℝ) * m + 1) / 2) = -(m + 1 / 2) := by ring
    rw [this, one_div (2 : ℝ), Real.inv_rpow (by norm_num), Real.rpow_neg (by norm_num), inv_inv,
      Real.rpow_add (by norm_num), Real.rpow_natCast, Real.sqrt_eq_rpow, one_div]
  rw [e5, Real.sqrt_mul (by norm_num)]
  have h2 : √(2 : ℝ) ≠ 0 := by positivity
  have h3 : √Real.pi ≠ 0 := by have := Real.pi_pos; positivity
  have h4 : (2 : ℝ) ^ m ≠ 0 := by positivity
  field_simp

/-- Moments of the standard normal distribution, by parity. -/
def stdMom (k : ℕ) : ℝ := if k % 2 = 0 then (Nat.doubleFactorial (k - 1) : ℝ) else 0

theorem stdMom_eq (k : ℕ) : ∫ x, x ^ k ∂(gaussianReal 0 1) = stdMom k := by
  unfold stdMom
  split
  · next h =>
    obtain ⟨m, rfl⟩ := Nat.dvd_of_mod_eq_zero h
    exact stdMoment_even m
  · next h => exact stdMoment_odd (by omega)

/-- Moments of a normal distribution about any point, by the binomial expansion. -/
theorem normal_moment (μ σ a : ℝ) (j : ℕ) : ∫ v, (v - a) ^ j ∂(normal μ σ) =
    ∑ k ∈ Finset.range (j + 1), (μ - a) ^ (j - k) * (σ ^ k * stdMom k) * (j.choose k : ℝ) := by
  rw [← normal_map, integral_map (by fun_prop) (by fun_prop)]
  have e : ∀ u : ℝ, (σ * u + μ - a) ^ j =
      ∑ k ∈ Finset.range (j + 1), σ ^ k * (μ - a) ^ (j - k) * (j.choose k : ℝ) * u ^ k := by
    intro u
    rw [add_sub_assoc, add_pow]
    exact Finset.sum_congr rfl fun k _ => by rw [mul_pow]; ring
  simp only [e]
  rw [integral_finset_sum _ (fun k _ => (integrable_pow_std k).const_mul _)]
  refine Finset.sum_congr rfl fun k _ => ?_
  rw [integral_const_mul, stdMom_eq]; ring

end PKM
