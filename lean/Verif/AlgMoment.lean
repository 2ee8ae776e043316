import Mathlib.Algebra.Algebra.Basic
import Mathlib.Algebra.Module.LinearMap.Basic
import Mathlib.Analysis.SpecialFunctions.Sqrt
import Mathlib.Tactic.Linarith
import Mathlib.Tactic.FieldSimp
import Mathlib.Tactic.Positivity
import Mathlib.Tactic.Ring

/-! Lemmas: inequalities between moments, for a functional on a commutative algebra which is non-negative on squares.  The
algebra is that of polynomials (moments of a velocity that is not confined to a grid). -/

noncomputable section

namespace PKM

/-- A linear functional, non-negative on squares, one at 1. -/
structure PosAlg {A : Type*} [CommRing A] [Algebra ℝ A] (E : A →ₗ[ℝ] ℝ) : Prop where
  sq : ∀ x : A, 0 ≤ E (x ^ 2)
  one : E 1 = 1

namespace PosAlg
variable {A : Type*} [CommRing A] [Algebra ℝ A] {E : A →ₗ[ℝ] ℝ}

theorem const (h : PosAlg E) (k : ℝ) : E (algebraMap ℝ A k) = k := by
  rw [Algebra.algebraMap_eq_smul_one, map_smul, h.one, smul_eq_mul, mul_one]

theorem const_mul (k : ℝ) (x : A) : E (algebraMap ℝ A k * x) = k * E x := by
  rw [← Algebra.smul_def, map_smul, smul_eq_mul]

theorem centred (h : PosAlg E) (x : A) : E (x - algebraMap ℝ A (E x)) = 0 := by
  rw [map_sub, h.const, sub_self]

theorem var (h : PosAlg E) (x : A) : E ((x - algebraMap ℝ A (E x)) ^ 2) = E (x ^ 2) - E x ^ 2 := by
  have e : (x - algebraMap ℝ A (E x)) ^ 2 = x ^ 2 + algebraMap ℝ A (-2 * E x) * x + algebraMap ℝ A (E x ^ 2) := by
    simp only [map_mul, map_neg, map_pow, map_ofNat]; ring
  rw [e, map_add, map_add, h.const, const_mul]; ring

theorem cauchy (h : PosAlg E) (x y : A) : (E (x * y)) ^ 2 ≤ E (x ^ 2) * E (y ^ 2) := by
  have key : ∀ s t : ℝ, 0 ≤ s ^ 2 * E (x ^ 2) + 2 * s * t * E (x * y) + t ^ 2 * E (y ^ 2) := by
    intro s t
    have h1 := h.sq (algebraMap ℝ A s * x + algebraMap ℝ A t * y)
    have e : (algebraMap ℝ A s * x + algebraMap ℝ A t * y) ^ 2 = algebraMap ℝ A (s ^ 2) * x ^ 2 +
        algebraMap ℝ A (2 * s * t) * (x * y) + algebraMap ℝ A (t ^ 2) * y ^ 2 := by
      simp only [map_mul, map_pow, map_ofNat]; ring
    rw [e, map_add, map_add, const_mul, const_mul, const_mul] at h1
    exact h1
  have hA := h.sq x
  have hB := h.sq y
  generalize E (x ^ 2) = a at *
  generalize E (y ^ 2) = b at *
  generalize E (x * y) = c at *
  rcases hB.eq_or_lt with hB | hB
  · subst hB
    by_contra hne
    have hC : 0 < c ^ 2 := by linarith
    have hC0 : c ≠ 0 := fun e => by simp [e] at hC
    have k := key 1 (-(a + 1) / (2 * c))
    have : 2 * 1 * (-(a + 1) / (2 * c)) * c = -(a + 1) := by field_simp
    rw [this] at k; linarith
  · have k := key b (-c)
    have : 0 ≤ b * (a * b - c ^ 2) := by nlinarith
    have := nonneg_of_mul_nonneg_right this hB
    linarith

/-- No spread: everything multiplied by the deviation averages to zero. -/
theorem vanish (h : PosAlg E) {x : A} (hx : E (x ^ 2) = 0) (y : A) : E (x * y) = 0 := by
  have := h.cauchy x y
  rw [hx, zero_mul] at this
  exact pow_eq_zero_iff (two_ne_zero) |>.1 (le_antisymm this (sq_nonneg _))

/-- Pearson's inequality between skewness and kurtosis. -/
theorem pearson (h : PosAlg E) {y : A} (hY : E y = 0) (hv : 0 < E (y ^ 2)) :
    1 + (E (y ^ 3) / Real.sqrt (E (y ^ 2)) ^ 3) ^ 2 ≤ E (y ^ 4) / Real.sqrt (E (y ^ 2)) ^ 4 := by
  have key : ∀ a : ℝ, 0 ≤ E (y ^ 4) - 2 * a * E (y ^ 3) + a ^ 2 * E (y ^ 2) - E (y ^ 2) ^ 2 := by
    intro a
    set m := E (y ^ 2) with hm
    have h1 := h.sq (y ^ 2 - algebraMap ℝ A a * y - algebraMap ℝ A m)
    have e : (y ^ 2 - algebraMap ℝ A a * y - algebraMap ℝ A m) ^ 2 = y ^ 4 + algebraMap ℝ A (-2 * a) * y ^ 3 +
        algebraMap ℝ A (a ^ 2 - 2 * m) * y ^ 2 + algebraMap ℝ A (2 * a * m) * y + algebraMap ℝ A (m ^ 2) := by
      simp only [map_mul, map_neg, map_pow, map_sub, map_ofNat]; ring
    rw [e, map_add, map_add, map_add, map_add, const_mul, const_mul, const_mul, h.const, hY, ← hm] at h1
    nlinarith
  have hs := Real.sq_sqrt hv.le
  have hp := Real.sqrt_pos.2 hv
  generalize hr : Real.sqrt (E (y ^ 2)) = r at *
  generalize E (y ^ 2) = m at *
  generalize E (y ^ 3) = m3 at *
  generalize E (y ^ 4) = m4 at *
  subst hs
  have k := key (m3 / r ^ 2)
  have e1 : 2 * (m3 / r ^ 2) * m3 = 2 * (m3 ^ 2 / r ^ 2) := by ring
  have e2 : (m3 / r ^ 2) ^ 2 * r ^ 2 = m3 ^ 2 / r ^ 2 := by field_simp
  rw [e1, e2] at k
  rw [le_div_iff₀ (by positivity)]
  have e3 : (1 + (m3 / r ^ 3) ^ 2) * r ^ 4 = r ^ 4 + m3 ^ 2 / r ^ 2 := by field_simp
  rw [e3]
  nlinarith

end PosAlg
end PKM
