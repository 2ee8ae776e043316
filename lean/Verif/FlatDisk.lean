import Verif.Props.Protocol
import Verif.PopDerived

/-! A parametric component for examples: uniform in age, position and metallicity, with a mean velocity for each age and a
small dispersion. Its attributes are assigned, not computed by the setters. -/

open scoped Classical
open MeasureTheory

noncomputable section

namespace PKM
open Np Component

/-- Uniform over the bins of the example grid; mean velocity `μ t`, dispersion 1/10. -/
def flatIngr (μ : ℕ → ℝ) : Ingredients where
  pt t := 1 / (2 * |width demoGrid.t t|)
  px _ x y := 1 / (30 * (|width demoGrid.x x| * |width demoGrid.y y|))
  pz _ _ _ z := 1 / (3 * |width demoGrid.z z|)
  mu t _ _ := μ t
  sig _ _ _ := 1 / 10

theorem flat_probTXZ (μ : ℕ → ℝ) {c : Cell} (hc : demoGrid.Has c) : (flatIngr μ).probTXZ demoGrid c = 1 / 180 := by
  have hg := demoGrid_proper
  have h1 : 0 < width demoGrid.t c.t := sub_pos.2 (hg.t _ hc.1)
  have h2 : 0 < width demoGrid.x c.x := sub_pos.2 (hg.x _ hc.2.2.1)
  have h3 : 0 < width demoGrid.y c.y := sub_pos.2 (hg.y _ hc.2.2.2.1)
  have h4 : 0 < width demoGrid.z c.z := sub_pos.2 (hg.z _ hc.2.2.2.2)
  unfold Ingredients.probTXZ Ingredients.probT Ingredients.probX Ingredients.probZ flatIngr
  simp only [abs_of_pos h1, abs_of_pos h2, abs_of_pos h3, abs_of_pos h4]
  field_simp
  norm_num

theorem flat_normalised (μ : ℕ → ℝ) : (flatIngr μ).Normalised demoGrid := by
  have hg := demoGrid_proper
  refine ⟨fun t => ?_, fun t x y => ?_, fun t x y z => ?_, fun t x y => ?_, ?_, fun t ht => ?_, fun t ht x hx y hy => ?_⟩
  · unfold flatIngr; positivity
  · unfold flatIngr; positivity
  · unfold flatIngr; positivity
  · unfold flatIngr; norm_num
  · have e : ∀ t : Fin demoGrid.nt, (flatIngr μ).pt t * width demoGrid.t t = 1 / 2 := fun t => by
      have h1 : 0 < width demoGrid.t t := sub_pos.2 (hg.t _ t.2)
      unfold flatIngr
      simp only [abs_of_pos h1]
      field_simp
    simp only [e, Finset.sum_const, Finset.card_univ, Fintype.card_fin]
    norm_num [demoGrid, cubeGrid]
  · have e : ∀ (x : Fin demoGrid.nx) (y : Fin demoGrid.ny), (flatIngr μ).px t x y * (width demoGrid.x x * width demoGrid.y y) = 1 / 30 :=
      fun x y => by
        have h1 : 0 < width demoGrid.x x := sub_pos.2 (hg.x _ x.2)
        have h2 : 0 < width demoGrid.y y := sub_pos.2 (hg.y _ y.2)
        unfold flatIngr
        simp only [abs_of_pos h1, abs_of_pos h2]
        field_simp
    simp only [e, Finset.sum_const, Finset.card_univ, Fintype.card_fin]
    norm_num [demoGrid, cubeGrid]
  · have e : ∀ z : Fin demoGrid.nz, (flatIngr μ).pz t x y z * width demoGrid.z z = 1 / 3 := fun z => by
      have h1 : 0 < width demoGrid.z z := sub_pos.2 (hg.z _ z.2)
      unfold flatIngr
      simp only [abs_of_pos h1]
      field_simp
    simp only [e, Finset.sum_const, Finset.card_univ, Fintype.card_fin]
    norm_num [demoGrid, cubeGrid]

theorem flatDisk_exists (μ : ℕ → ℝ) : ∃ p, ParamIs p demoGrid (flatIngr μ) demoL ∧ p.f2 = 1 := by
  obtain ⟨p, m, h, -, -, hf⟩ := demoDisk_exists 1
  refine ⟨{ p with
    logPt := some ⟨[2], fun i => Num.lg ((flatIngr μ).pt (i.getD 0 0))⟩
    logPxt := some ⟨[5, 6, 2], fun i => Num.lg ((flatIngr μ).px (i.getD 2 0) (i.getD 0 0) (i.getD 1 0))⟩
    logPztx := some ⟨[3, 2, 5, 6], fun i => Num.lg ((flatIngr μ).pz (i.getD 1 0) (i.getD 2 0) (i.getD 3 0) (i.getD 0 0))⟩
    muV := some ⟨[2, 5, 6], fun i => .fin ((flatIngr μ).mu (i.getD 0 0) (i.getD 1 0) (i.getD 2 0))⟩
    sigV := some ⟨[2, 5, 6], fun i => .fin ((flatIngr μ).sig (i.getD 0 0) (i.getD 1 0) (i.getD 2 0))⟩ },
    ⟨h.proper, h.cubeIs, flat_normalised μ, ⟨_, rfl, rfl, fun _ _ => rfl⟩, ⟨_, rfl, rfl, fun _ _ => rfl⟩,
      ⟨_, rfl, rfl, fun _ _ => rfl⟩, ⟨_, rfl, rfl, fun _ _ => rfl⟩, ⟨_, rfl, rfl, fun _ _ => rfl⟩, h.light, h.lightNonneg⟩, hf⟩

/-! ### Normal velocities rarely deviate by ten dispersions -/

theorem normal_var (μ σ : ℝ) : ∫ v, (v - μ) ^ 2 ∂(normal μ σ) = σ ^ 2 := by
  rw [normal_moment]
  simp [Finset.sum_range_succ, stdMom, Nat.doubleFactorial]

theorem normal_tail (μ σ : ℝ) : (normal μ σ).real {v | 1 ≤ (v - μ) ^ 2} ≤ σ ^ 2 := by
  have hi : Integrable (fun v => (v - μ) ^ 2) (normal μ σ) := by
    have := integrable_poly μ σ ((Polynomial.X - Polynomial.C μ) ^ 2)
    simpa using this
  have := mul_meas_ge_le_integral_of_nonneg (μ := normal μ σ) (f := fun v => (v - μ) ^ 2)
    (Filter.Eventually.of_forall fun v => sq_nonneg _) hi 1
  rwa [one_mul, normal_var] at this

theorem normal_far {μ σ a b : ℝ} (h : b + 1 ≤ μ ∨ μ + 1 ≤ a) : (normal μ σ).real (Set.Ioc a b) ≤ σ ^ 2 := by
  refine (measureReal_mono fun v hv => ?_).trans (normal_tail μ σ)
  obtain ⟨h1, h2⟩ := hv
  show 1 ≤ (v - μ) ^ 2
  rcases h with h | h
  · nlinarith
  · nlinarith

theorem normal_near {μ σ a b : ℝ} (h1 : a + 1 ≤ μ) (h2 : μ + 1 ≤ b) : 1 - σ ^ 2 ≤ (normal μ σ).real (Set.Ioc a b) := by
  have h := measureReal_compl (μ := normal μ σ) (measurableSet_Ioc (a := a) (b := b))
  have h' : (normal μ σ).real (Set.Ioc a b)ᶜ ≤ σ ^ 2 := by
    refine (measureReal_mono fun v hv => ?_).trans (normal_tail μ σ)
    show 1 ≤ (v - μ) ^ 2
    by_cases h : v ≤ a
    · nlinarith
    · have : b < v := by
        by_contra h'
        exact hv ⟨not_le.1 h, not_lt.1 h'⟩
      nlinarith
  rw [probReal_univ] at h
  linarith

end PKM
