import Verif.Scipy
import Mathlib.MeasureTheory.Integral.DominatedConvergence
import Mathlib.MeasureTheory.Integral.IntervalIntegral.Basic

/-! Lemmas: distribution function and quantiles of beta distributions. -/

open scoped Classical
open MeasureTheory ProbabilityTheory Set

noncomputable section

namespace PKM

variable {a b : ℝ}

theorem measurable_betaPDF (a b : ℝ) : Measurable (betaPDF a b) := by
  unfold betaPDF; fun_prop

theorem betaPDFReal_nonneg (ha : 0 < a) (hb : 0 < b) (x : ℝ) : 0 ≤ betaPDFReal a b x := by
  by_cases h : 0 < x ∧ x < 1
  · exact (betaPDFReal_pos h.1 h.2 ha hb).le
  · simp [betaPDFReal, h]

theorem integrable_betaPDFReal (ha : 0 < a) (hb : 0 < b) : Integrable (betaPDFReal a b) := by
  refine ⟨(stronglyMeasurable_betaPDFReal a b).aestronglyMeasurable, ?_⟩
  rw [hasFiniteIntegral_iff_ofReal (Filter.Eventually.of_forall (betaPDFReal_nonneg ha hb))]
  have := lintegral_betaPDF_eq_one ha hb
  unfold betaPDF at this
  rw [this]
  exact ENNReal.one_lt_top

theorem betaMeasure_real (ha : 0 < a) (hb : 0 < b) {s : Set ℝ} (hs : MeasurableSet s) :
    (betaMeasure a b).real s = ∫ x in s, betaPDFReal a b x := by
  rw [measureReal_def, betaMeasure, withDensity_apply _ hs,
    integral_eq_lintegral_of_nonneg_ae (Filter.Eventually.of_forall (betaPDFReal_nonneg ha hb))
      (stronglyMeasurable_betaPDFReal a b).aestronglyMeasurable]
  rfl

theorem betaCdf_eq_integral (ha : 0 < a) (hb : 0 < b) (x : ℝ) : betaCdf a b x = ∫ u in (0:ℝ)..x, betaPDFReal a b u := by
  have hi := integrable_betaPDFReal ha hb
  unfold betaCdf
  rw [betaMeasure_real ha hb measurableSet_Iic,
    ← intervalIntegral.integral_Iic_sub_Iic hi.integrableOn hi.integrableOn]
  have : ∫ u in Iic (0:ℝ), betaPDFReal a b u = 0 := by
    refine setIntegral_eq_zero_of_forall_eq_zero fun u (hu : u ≤ 0) => ?_
    simp [betaPDFReal, hu.not_gt]
  rw [this, sub_zero]

theorem betaCdf_continuous (ha : 0 < a) (hb : 0 < b) : Continuous (betaCdf a b) := by
  have := (integrable_betaPDFReal ha hb).continuous_primitive 0
  refine this.congr fun x => ?_
  rw [betaCdf_eq_integral ha hb]

theorem betaCdf_mono (ha : 0 < a) (hb : 0 < b) : Monotone (betaCdf a b) := by
  haveI := isProbabilityMeasureBeta ha hb
  exact fun x y h => measureReal_mono (Iic_subset_Iic.2 h)

theorem betaCdf_nonneg (x : ℝ) : 0 ≤ betaCdf a b x := measureReal_nonneg

theorem betaCdf_zero (ha : 0 < a) (hb : 0 < b) : betaCdf a b 0 = 0 := by
  rw [betaCdf_eq_integral ha hb]; simp

theorem betaCdf_one (ha : 0 < a) (hb : 0 < b) : betaCdf a b 1 = 1 := by
  haveI := isProbabilityMeasureBeta ha hb
  unfold betaCdf
  have h : (betaMeasure a b).real (Iic 1)ᶜ = 0 := by
    rw [compl_Iic, betaMeasure_real ha hb measurableSet_Ioi]
    refine setIntegral_eq_zero_of_forall_eq_zero fun u (hu : 1 < u) => ?_
    simp [betaPDFReal, hu.le.not_gt]
  have := probReal_add_probReal_compl (μ := betaMeasure a b) (measurableSet_Iic (a := (1:ℝ)))
  linarith

/-- Probability of an interval of the unit range. -/
theorem beta_Ioc (ha : 0 < a) (hb : 0 < b) {x y : ℝ} (h : x ≤ y) :
    (betaMeasure a b).real (Ioc x y) = betaCdf a b y - betaCdf a b x := by
  haveI := isProbabilityMeasureBeta ha hb
  unfold betaCdf
  rw [← measureReal_diff (Iic_subset_Iic.2 h) measurableSet_Iic]
  congr 1
  ext u; simp [and_comm]

theorem betaCdf_strict (ha : 0 < a) (hb : 0 < b) {x y : ℝ} (hx : 0 ≤ x) (hy : y ≤ 1) (h : x < y) :
    betaCdf a b x < betaCdf a b y := by
  haveI := isProbabilityMeasureBeta ha hb
  have h1 : 0 < (betaMeasure a b).real (Ioc x y) := by
    rw [measureReal_def, ENNReal.toReal_pos_iff]
    refine ⟨?_, measure_lt_top _ _⟩
    rw [pos_iff_ne_zero]
    intro h0
    rw [betaMeasure, withDensity_apply_eq_zero (measurable_betaPDF a b)] at h0
    have h2 : Ioo x y ⊆ {u | betaPDF a b u ≠ 0} ∩ Ioc x y := fun u hu => by
      refine ⟨?_, hu.1, hu.2.le⟩
      have := betaPDFReal_pos (hx.trans_lt hu.1) (hu.2.trans_le hy) ha hb
      simp only [betaPDF, mem_setOf_eq, ne_eq, ENNReal.ofReal_eq_zero, not_le]
      exact this
    have h3 := measure_mono_null h2 h0
    simp at h3
    linarith
  rw [beta_Ioc ha hb h.le] at h1
  linarith

/-- The quantile function inverts the distribution function. -/
theorem betaPpf_spec (ha : 0 < a) (hb : 0 < b) {q : ℝ} (h0 : 0 ≤ q) (h1 : q ≤ 1) :
    0 ≤ betaPpf a b q ∧ betaPpf a b q ≤ 1 ∧ betaCdf a b (betaPpf a b q) = q := by
  set S := {x : ℝ | 0 ≤ x ∧ q ≤ betaCdf a b x} with hS
  have hne : (1:ℝ) ∈ S := ⟨zero_le_one, by rw [betaCdf_one ha hb]; exact h1⟩
  have hbd : BddBelow S := ⟨0, fun x hx => hx.1⟩
  have hcl : IsClosed S := by
    have : S = Ici 0 ∩ betaCdf a b ⁻¹' Ici q := rfl
    rw [this]
    exact isClosed_Ici.inter (isClosed_Ici.preimage (betaCdf_continuous ha hb))
  have hmem : betaPpf a b q ∈ S := hcl.csInf_mem ⟨1, hne⟩ hbd
  have hle : betaPpf a b q ≤ 1 := csInf_le hbd hne
  refine ⟨hmem.1, hle, le_antisymm ?_ hmem.2⟩
  by_contra hcon
  push Not at hcon
  -- intermediate value
  have hp : 0 < betaPpf a b q := by
    rcases hmem.1.lt_or_eq with h | h
    · exact h
    · rw [← h, betaCdf_zero ha hb] at hcon; linarith
  obtain ⟨x, hx, hxq⟩ : q ∈ betaCdf a b '' Icc 0 (betaPpf a b q) := by
    refine intermediate_value_Icc hmem.1 (betaCdf_continuous ha hb).continuousOn ⟨?_, hcon.le⟩
    rw [betaCdf_zero ha hb]; exact h0
  have : betaPpf a b q ≤ x := csInf_le hbd ⟨hx.1, hxq.ge⟩
  have e : x = betaPpf a b q := le_antisymm hx.2 this
  rw [e] at hxq
  linarith

theorem betaPpf_strict (ha : 0 < a) (hb : 0 < b) {q r : ℝ} (h0 : 0 ≤ q) (h : q < r) (h1 : r ≤ 1) :
    betaPpf a b q < betaPpf a b r := by
  obtain ⟨-, -, h2⟩ := betaPpf_spec ha hb h0 (h.le.trans h1)
  obtain ⟨-, -, h3⟩ := betaPpf_spec ha hb (h0.trans h.le) h1
  by_contra hcon
  push Not at hcon
  have := betaCdf_mono ha hb hcon
  linarith

end PKM
