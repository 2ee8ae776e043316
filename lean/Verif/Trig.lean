import Verif.Dft
import Verif.Gauss
import Mathlib.MeasureTheory.Measure.CharacteristicFunction.Basic

/-!
# Sampled spectra between their samples, and their convolution with a normal law

Specification: `continued n s` is the periodic band-limited function through the samples `s 0 .. s (n-1)` (trigonometric
interpolation). Lemmas: multiplying the discrete transform of `s` by the transform of a normal law is
convolving `continued n s` with it.
-/

open scoped Classical
open MeasureTheory ProbabilityTheory

noncomputable section

namespace PKM

/-- Periodic sinc function (Dirichlet kernel) of period `n`: 1 at 0, 0 at the other integers below `n`. -/
def dirichlet (n : ℕ) (u : ℝ) : ℝ :=
  (1 + ∑ j ∈ Finset.Ico 1 (n / 2 + 1), (if 2 * j = n then 1 else 2) * Real.cos (2 * Real.pi * j * u / n)) / n

/-- The band-limited function of period `n` through the samples `s 0, ..., s (n - 1)`. -/
def continued (n : ℕ) (s : ℕ → ℝ) (u : ℝ) : ℝ := ∑ i ∈ Finset.range n, s i * dirichlet n (u - i)

/-- Transform of the normal law at frequency `w`. -/
def gaussFT (mu sig w : ℝ) : ℂ := Complex.exp (-Complex.I * mu * w - 0.5 * (sig * w) ^ 2)

theorem gaussFT_zero (mu sig : ℝ) : gaussFT mu sig 0 = 1 := by simp [gaussFT]

theorem integral_exp (mu sig w : ℝ) : ∫ v, Complex.exp (-(w * v : ℝ) * Complex.I) ∂normal mu sig = gaussFT mu sig w := by
  have e := charFun_gaussianReal (μ := mu) (v := (sig ^ 2).toNNReal) (-w)
  rw [charFun_apply_real] at e
  unfold normal gaussFT
  have h2 : (((sig ^ 2).toNNReal : ℝ) : ℂ) = (sig : ℂ) ^ 2 := by
    rw [Real.coe_toNNReal _ (sq_nonneg sig)]
    push_cast
    rfl
  calc _ = ∫ v, Complex.exp (((-w : ℝ) : ℂ) * v * Complex.I) ∂gaussianReal mu (sig ^ 2).toNNReal := by
        congr 1
        funext v
        push_cast
        ring_nf
    _ = _ := by
        rw [e]
        congr 1
        rw [h2]
        push_cast
        ring

theorem integrable_cos (mu sig a w : ℝ) : Integrable (fun v => Real.cos (a - w * v)) (normal mu sig) := by
  refine Integrable.of_bound (C := 1) (Continuous.aestronglyMeasurable (by fun_prop)) (Filter.Eventually.of_forall fun v => ?_)
  rw [Real.norm_eq_abs]
  exact Real.abs_cos_le_one _

theorem integral_cos (mu sig a w : ℝ) :
    ∫ v, Real.cos (a - w * v) ∂normal mu sig = (Complex.exp (a * Complex.I) * gaussFT mu sig w).re := by
  have hi : Integrable (fun v : ℝ => Complex.exp (-(w * v : ℝ) * Complex.I)) (normal mu sig) := by
    refine Integrable.of_bound (C := 1) (Continuous.aestronglyMeasurable (by fun_prop)) (Filter.Eventually.of_forall fun v => ?_)
    have : (-(w * v : ℝ) : ℂ) = ((-(w * v) : ℝ) : ℂ) := by push_cast; rfl
    rw [this, Complex.norm_exp_ofReal_mul_I]
  rw [← integral_exp, ← integral_const_mul]
  have h := integral_re (hi.const_mul (Complex.exp (a * Complex.I)))
  simp only [RCLike.re_eq_complex_re] at h
  rw [← h]
  congr 1
  funext v
  rw [← Complex.exp_add, ← Complex.exp_ofReal_mul_I_re]
  congr 2
  push_cast
  ring

namespace Fft

theorem rfft_pad (len n : ℕ) (s : ℕ → ℝ) (k : ℕ) :
    rfft len n s k = rfft n n (fun j => if j < len then s j else 0) k := by
  unfold rfft
  refine Finset.sum_congr rfl fun j hj => ?_
  rw [if_pos (Finset.mem_range.1 hj)]
  by_cases h : j < len <;> simp [h]

theorem irfft_sum {ι : Type} (I : Finset ι) (n : ℕ) (a : ι → ℝ) (X : ι → ℕ → ℂ) (k : ℕ) :
    irfft n (fun w => ∑ i ∈ I, (a i : ℂ) * X i w) k = ∑ i ∈ I, a i * irfft n (X i) k := by
  induction I using Finset.induction_on with
  | empty => simp [irfft]
  | insert i I hi ih =>
    rw [Finset.sum_insert hi, ← ih]
    have e := irfft_linear n (X i) (fun w => ∑ i ∈ I, (a i : ℂ) * X i w) (a i) 1 k
    simp only [Complex.ofReal_one, one_mul] at e
    rw [← e]
    congr 1
    funext w
    rw [Finset.sum_insert hi]

theorem root_eq_exp (n : ℕ) (m : ℤ) : root n m = Complex.exp (((2 * Real.pi * m / n : ℝ) : ℂ) * Complex.I) := by
  unfold root
  congr 1
  push_cast
  ring

/-- One frequency of the product of two transforms. -/
theorem term_eq {n : ℕ} (s : ℕ → ℝ) (mu sig w : ℝ) (j k : ℕ) :
    (rfft n n s j * gaussFT mu sig w * root n (j * k)).re =
      ∑ i ∈ Finset.range n, s i * ∫ v, Real.cos (2 * Real.pi * j * ((k : ℝ) - i) / n - w * v) ∂normal mu sig := by
  rw [rfft_eq, Finset.sum_mul, Finset.sum_mul, Complex.re_sum]
  refine Finset.sum_congr rfl fun i _ => ?_
  rw [integral_cos, ← Complex.re_ofReal_mul]
  congr 1
  have : root n (-(j * i)) * root n (j * k) = Complex.exp (((2 * Real.pi * j * ((k : ℝ) - i) / n : ℝ) : ℂ) * Complex.I) := by
    rw [← root_add, root_eq_exp]
    congr 2
    push_cast
    ring
  rw [← this]
  ring

end Fft

theorem integrable_dirichlet (mu sig c a : ℝ) (n : ℕ) :
    Integrable (fun v => dirichlet n (a - c * v)) (normal mu sig) := by
  unfold dirichlet
  refine Integrable.div_const (Integrable.add (integrable_const _) (integrable_finset_sum _ fun j _ => ?_)) _
  refine Integrable.const_mul ?_ _
  have := integrable_cos mu sig (2 * Real.pi * j * a / n) (2 * Real.pi * j * c / n)
  refine this.congr (Filter.Eventually.of_forall fun v => ?_)
  show Real.cos _ = Real.cos _
  congr 1
  ring

theorem integrable_continued (mu sig c a : ℝ) (n : ℕ) (s : ℕ → ℝ) :
    Integrable (fun v => continued n s (a - c * v)) (normal mu sig) := by
  unfold continued
  refine integrable_finset_sum _ fun i _ => Integrable.const_mul ?_ _
  have := integrable_dirichlet mu sig c (a - i) n
  refine this.congr (Filter.Eventually.of_forall fun v => ?_)
  show dirichlet n _ = dirichlet n _
  congr 1
  ring

/-- Multiplying the transform of the samples by that of a normal law, at the frequencies `2 pi j c / n`, is convolving the
continued spectrum with the law of `c v`. -/
theorem irfft_gauss {n : ℕ} (s : ℕ → ℝ) (mu sig c : ℝ) (k : ℕ) :
    Fft.irfft n (fun j => Fft.rfft n n s j * gaussFT mu sig (2 * Real.pi * j * c / n)) k =
      ∫ v, continued n s (k - c * v) ∂normal mu sig := by
  have hcos : ∀ (i j : ℕ), ∫ v, Real.cos (2 * Real.pi * j * ((k : ℝ) - c * v - i) / n) ∂normal mu sig =
      ∫ v, Real.cos (2 * Real.pi * j * ((k : ℝ) - i) / n - (2 * Real.pi * j * c / n) * v) ∂normal mu sig := by
    intro i j
    congr 1
    funext v
    congr 1
    ring
  have hcosI : ∀ (i j : ℕ), Integrable (fun v => Real.cos (2 * Real.pi * j * ((k : ℝ) - c * v - i) / n)) (normal mu sig) := by
    intro i j
    refine (integrable_cos mu sig (2 * Real.pi * j * ((k : ℝ) - i) / n) (2 * Real.pi * j * c / n)).congr
      (Filter.Eventually.of_forall fun v => ?_)
    show Real.cos _ = Real.cos _
    congr 1
    ring
  unfold continued
  rw [integral_finset_sum _ fun i _ => by
    refine Integrable.const_mul ?_ _
    have := integrable_dirichlet mu sig c (k - i) n
    refine this.congr (Filter.Eventually.of_forall fun v => ?_)
    show dirichlet n _ = dirichlet n _
    congr 1
    ring]
  have hD : ∀ i : ℕ, ∫ v, dirichlet n ((k : ℝ) - c * v - i) ∂normal mu sig =
      (1 + ∑ j ∈ Finset.Ico 1 (Fft.half n), (if 2 * j = n then 1 else 2) *
        ∫ v, Real.cos (2 * Real.pi * j * ((k : ℝ) - i) / n - (2 * Real.pi * j * c / n) * v) ∂normal mu sig) / n := by
    intro i
    unfold dirichlet
    rw [integral_div, integral_add (integrable_const _) (integrable_finset_sum _ fun j _ => (hcosI i j).const_mul _),
      integral_finset_sum _ fun j _ => (hcosI i j).const_mul _]
    simp only [integral_const_mul, hcos]
    simp [Fft.half]
  simp only [integral_const_mul, hD]
  unfold Fft.irfft
  have h0 : (Fft.rfft n n s 0 * gaussFT mu sig (2 * Real.pi * ((0 : ℕ) : ℝ) * c / n)).re = ∑ i ∈ Finset.range n, s i := by
    rw [Fft.rfft_zero _ _ _ le_rfl]
    simp [gaussFT_zero]
  rw [h0]
  have h1 : ∀ j : ℕ, (if 2 * j = n then (Fft.rfft n n s j * gaussFT mu sig (2 * Real.pi * j * c / n) * Fft.root n (j * k)).re
      else 2 * (Fft.rfft n n s j * gaussFT mu sig (2 * Real.pi * j * c / n) * Fft.root n (j * k)).re) =
      ∑ i ∈ Finset.range n, s i * ((if 2 * j = n then 1 else 2) *
        ∫ v, Real.cos (2 * Real.pi * j * ((k : ℝ) - i) / n - (2 * Real.pi * j * c / n) * v) ∂normal mu sig) := by
    intro j
    rw [Fft.term_eq]
    split_ifs
    · simp only [one_mul]
    · rw [Finset.mul_sum]
      exact Finset.sum_congr rfl fun i _ => by ring
  simp only [h1]
  rw [Finset.sum_comm, ← Finset.sum_add_distrib, div_eq_mul_inv, Finset.sum_mul]
  refine Finset.sum_congr rfl fun i _ => ?_
  rw [← Finset.mul_sum, div_eq_mul_inv]
  ring

/-- The continued spectrum goes through the samples. -/
theorem continued_at {n : ℕ} (hn : 0 < n) (s : ℕ → ℝ) {k : ℕ} (hk : k < n) : continued n s k = s k := by
  rw [← Fft.irfft_rfft hn s hk]
  have e := irfft_gauss (n := n) s 0 0 0 k
  have hw : ∀ j : ℕ, gaussFT 0 0 (2 * Real.pi * j * 0 / n) = 1 := by intro j; simp [gaussFT]
  simp only [hw, mul_one, zero_mul, sub_zero, integral_const, probReal_univ, one_smul] at e
  exact e.symm

/-- The continued spectrum has period `n`. -/
theorem continued_periodic {n : ℕ} (hn : 0 < n) (s : ℕ → ℝ) (u : ℝ) : continued n s (u + n) = continued n s u := by
  have hn' : (n : ℝ) ≠ 0 := by exact_mod_cast hn.ne'
  unfold continued dirichlet
  refine Finset.sum_congr rfl fun i _ => ?_
  congr 3
  refine Finset.sum_congr rfl fun j _ => ?_
  congr 1
  rw [← Real.cos_add_nat_mul_two_pi (2 * Real.pi * j * (u - i) / n) j]
  congr 1
  field_simp
  ring

end PKM
