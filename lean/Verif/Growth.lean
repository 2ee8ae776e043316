import Verif.Metal
import Verif.DiskLemmas

/-! Lemmas for C87: cored power laws and expectations over pixels. -/

open scoped Classical

noncomputable section

namespace PKM
open Np Component

/-- The ratio of two cored power laws is monotone in radius. -/
theorem power_cross {R R' c c' a a' : ℝ} (hR : 0 ≤ R) (hRR : R ≤ R') (hc' : 0 < c') (hcc : c' ≤ c) (ha : 0 ≤ a) (haa : a ≤ a') :
    (R' + c') ^ (-a') * (R + c) ^ (-a) ≤ (R + c') ^ (-a') * (R' + c) ^ (-a) ∧
      (R < R' → a < a' ∨ 0 < a' ∧ c' < c → (R' + c') ^ (-a') * (R + c) ^ (-a) < (R + c') ^ (-a') * (R' + c) ^ (-a)) := by
  have hA : 0 < R + c := by linarith
  have hB : 0 < R' + c := by linarith
  have hA' : 0 < R + c' := by linarith
  have hB' : 0 < R' + c' := by linarith
  have u1 : 1 ≤ (R' + c) / (R + c) := (one_le_div hA).2 (by linarith)
  have u2 : (R' + c) / (R + c) ≤ (R' + c') / (R + c') := by rw [div_le_div_iff₀ hA hA']; nlinarith
  have u3 : 1 ≤ (R' + c') / (R + c') := u1.trans u2
  have pA := Real.rpow_pos_of_pos hA a
  have pB := Real.rpow_pos_of_pos hB a
  have pA' := Real.rpow_pos_of_pos hA' a'
  have pB' := Real.rpow_pos_of_pos hB' a'
  have f1 : (R' + c') ^ (-a') * (R + c) ^ (-a) = ((R' + c') ^ a' * (R + c) ^ a)⁻¹ := by
    rw [Real.rpow_neg hB'.le, Real.rpow_neg hA.le, mul_inv]
  have f2 : (R + c') ^ (-a') * (R' + c) ^ (-a) = ((R + c') ^ a' * (R' + c) ^ a)⁻¹ := by
    rw [Real.rpow_neg hA'.le, Real.rpow_neg hB.le, mul_inv]
  have d1 : ((R' + c) / (R + c)) ^ a = (R' + c) ^ a / (R + c) ^ a := Real.div_rpow hB.le hA.le a
  have d2 : ((R' + c') / (R + c')) ^ a' = (R' + c') ^ a' / (R + c') ^ a' := Real.div_rpow hB'.le hA'.le a'
  have s1 : ((R' + c) / (R + c)) ^ a ≤ ((R' + c') / (R + c')) ^ a := Real.rpow_le_rpow (by linarith) u2 ha
  have s2 : ((R' + c') / (R + c')) ^ a ≤ ((R' + c') / (R + c')) ^ a' := Real.rpow_le_rpow_of_exponent_le u3 haa
  rw [f1, f2]
  constructor
  · refine inv_anti₀ (by positivity) ?_
    have := s1.trans s2
    rw [d1, d2, div_le_div_iff₀ pA pA'] at this
    linarith
  · intro hlt hs
    refine inv_strictAnti₀ (by positivity) ?_
    have : ((R' + c) / (R + c)) ^ a < ((R' + c') / (R + c')) ^ a' := by
      rcases haa.lt_or_eq with h | rfl
      · exact s1.trans_lt (Real.rpow_lt_rpow_of_exponent_lt ((one_lt_div hA').2 (by linarith)) h)
      · have h : 0 < a ∧ c' < c := by
          rcases hs with h | h
          · exact absurd h (lt_irrefl _)
          · exact h
        exact Real.rpow_lt_rpow (by linarith) (by rw [div_lt_div_iff₀ hA hA']; nlinarith) h.1
    rw [d1, d2, div_lt_div_iff₀ pA pA'] at this
    linarith

/-- A distribution more concentrated at small `R`: growing quantities have smaller expectations. -/
theorem expect_radius {ι : Type*} [Fintype ι] {P P' R φ : ι → ℝ} (h1 : ∑ i, P i = 1) (h1' : ∑ i, P' i = 1)
    (hr : ∀ i j, R i ≤ R j → P' j * P i ≤ P' i * P j) (hφ : ∀ i j, R i ≤ R j → φ i ≤ φ j) :
    ∑ i, φ i * P' i ≤ ∑ i, φ i * P i ∧
      ((∃ i j, R i ≤ R j ∧ φ i < φ j ∧ P' j * P i < P' i * P j) → ∑ i, φ i * P' i < ∑ i, φ i * P i) := by
  have e : ∑ i, ∑ j, (φ j - φ i) * (P' i * P j - P' j * P i) = 2 * (∑ i, φ i * P i - ∑ i, φ i * P' i) := by
    have s1 : ∑ i, ∑ j, φ i * P i * P' j = ∑ i, φ i * P i :=
      Finset.sum_congr rfl fun i _ => by rw [← Finset.mul_sum, h1', mul_one]
    have s2 : ∑ i, ∑ j, φ i * P' i * P j = ∑ i, φ i * P' i :=
      Finset.sum_congr rfl fun i _ => by rw [← Finset.mul_sum, h1, mul_one]
    have s3 : ∑ i, ∑ j, φ j * P j * P' i = ∑ i, φ i * P i := by rw [Finset.sum_comm]; exact s1
    have s4 : ∑ i, ∑ j, φ j * P' j * P i = ∑ i, φ i * P' i := by rw [Finset.sum_comm]; exact s2
    calc _ = ∑ i, ∑ j, (φ j * P j * P' i - φ j * P' j * P i - φ i * P' i * P j + φ i * P i * P' j) :=
          Finset.sum_congr rfl fun i _ => Finset.sum_congr rfl fun j _ => by ring
      _ = _ := by
          simp only [Finset.sum_add_distrib, Finset.sum_sub_distrib]
          rw [s1, s2, s3, s4]; ring
  have hnn : ∀ i j, 0 ≤ (φ j - φ i) * (P' i * P j - P' j * P i) := fun i j => by
    rcases le_total (R i) (R j) with h | h
    · exact mul_nonneg (sub_nonneg.2 (hφ _ _ h)) (sub_nonneg.2 (hr _ _ h))
    · exact mul_nonneg_of_nonpos_of_nonpos (sub_nonpos.2 (hφ _ _ h)) (sub_nonpos.2 (hr _ _ h))
  constructor
  · have : 0 ≤ ∑ i, ∑ j, (φ j - φ i) * (P' i * P j - P' j * P i) :=
      Finset.sum_nonneg fun i _ => Finset.sum_nonneg fun j _ => hnn i j
    linarith
  · rintro ⟨i, j, -, a1, a2⟩
    have : 0 < ∑ i, ∑ j, (φ j - φ i) * (P' i * P j - P' j * P i) :=
      Finset.sum_pos' (fun i _ => Finset.sum_nonneg fun j _ => hnn i j) ⟨i, Finset.mem_univ _,
        Finset.sum_pos' (fun j _ => hnn _ j) ⟨j, Finset.mem_univ _, mul_pos (sub_pos.2 a1) (sub_pos.2 a2)⟩⟩
    linarith

end PKM
