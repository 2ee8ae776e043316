import Verif.Props.Tabulate
import Verif.FlatDisk
import Mathlib.Analysis.Complex.ExponentialBounds

/-!
# C80: how much a parametric component loses at the ends of the velocity range

A velocity range that reaches `k` standard deviations beyond the mean velocity, for all ages and pixels, misses at most
`2 exp(-k²/2)` of the stars.
-/

open scoped Classical
open MeasureTheory ProbabilityTheory Set

noncomputable section

namespace PKM
open Np Component

variable {p : Param} {g : Grid} {m : Ingredients} {L : ℕ → ℕ → ℝ} {k : ℝ}

/-! ### Specification -/

/-- For all ages and pixels the velocity range reaches at least `k` standard deviations beyond the mean, on both sides. -/
def Reaches (g : Grid) (m : Ingredients) (k : ℝ) : Prop :=
  ∀ t < g.nt, ∀ x < g.nx, ∀ y < g.ny,
    g.v 0 + k * m.sig t x y ≤ m.mu t x y ∧ m.mu t x y + k * m.sig t x y ≤ g.v g.nv

/-- Bound on the probability beyond `k` standard deviations. -/
def tailBound (k : ℝ) : ℝ := 2 * Real.exp (-k ^ 2 / 2)

/-- The variables `w` without the velocity. -/
def withoutV (w : PyStr) : PyStr := w.filter (fun ch => ch ≠ 'v')

/-! ### Lemmas -/

theorem stdPhi_tail (hk : 0 ≤ k) : stdPhi (-k) ≤ Real.exp (-k ^ 2 / 2) := by
  have h := measure_le_le_exp_mul_mgf (μ := gaussianReal 0 1) (X := id) (t := -k) (-k) (by linarith)
    (integrable_exp_mul_gaussianReal _)
  rw [mgf_gaussianReal (p := gaussianReal 0 1) (X := id) (μ := 0) (v := 1) (by simp), ← Real.exp_add] at h
  unfold stdPhi
  refine le_trans (le_of_eq ?_) (h.trans (le_of_eq ?_))
  · rfl
  · congr 1; simp; ring

theorem stdPhi_head (hk : 0 ≤ k) : 1 - stdPhi k ≤ Real.exp (-k ^ 2 / 2) := by
  have h := measure_ge_le_exp_mul_mgf (μ := gaussianReal 0 1) (X := id) (t := k) k hk
    (integrable_exp_mul_gaussianReal _)
  rw [mgf_gaussianReal (p := gaussianReal 0 1) (X := id) (μ := 0) (v := 1) (by simp), ← Real.exp_add] at h
  have e : 1 - stdPhi k = (gaussianReal 0 1).real (Ioi k) := by
    unfold stdPhi
    rw [← probReal_compl_eq_one_sub measurableSet_Iic, compl_Iic]
  rw [e]
  refine le_trans (measureReal_mono ?_) (h.trans (le_of_eq ?_))
  · intro u hu; exact le_of_lt (mem_Ioi.1 hu)
  · congr 1; simp; ring

theorem tailBound_pos (k : ℝ) : 0 < tailBound k := by unfold tailBound; positivity

theorem probRange_ge (h : ParamIs p g m L) (hk : 0 ≤ k) (hr : Reaches g m k) {c : Cell} (hc : g.Has c) :
    1 - tailBound k ≤ probRange g m c := by
  have hσ := h.norm.sig c.t c.x c.y
  obtain ⟨h1, h2⟩ := hr c.t hc.1 c.x hc.2.2.1 c.y hc.2.2.2.1
  unfold probRange
  have hle : g.v 0 ≤ g.v g.nv := by
    have := mul_nonneg hk hσ.le
    linarith
  rw [normal_Ioc hσ hle]
  have a : stdPhi ((g.v 0 - m.mu c.t c.x c.y) / m.sig c.t c.x c.y) ≤ stdPhi (-k) :=
    stdPhi_mono (by rw [div_le_iff₀ hσ]; linarith)
  have b : stdPhi k ≤ stdPhi ((g.v g.nv - m.mu c.t c.x c.y) / m.sig c.t c.x c.y) :=
    stdPhi_mono (by rw [le_div_iff₀ hσ]; linarith)
  have := stdPhi_tail hk
  have := stdPhi_head hk
  unfold tailBound
  linarith

theorem coords_withoutV : ∀ w ∈ marginals, 'v' ∈ w → ∀ (d c : Cell) (v v' : ℕ),
    coords w { d with v := v' } = coords w { c with v := v } ↔ v' = v ∧ coords (withoutV w) d = coords (withoutV w) c := by
  intro w hw hv d c v v'
  simp only [marginals, List.mem_cons, List.not_mem_nil, or_false] at hw
  rcases hw with h | h | h | h | h | h | h | h | h | h | h | h | h | h | h <;> subst h <;>
    first
    | exact absurd hv (by decide)
    | (simp [withoutV, coords, coord1]; try tauto)

theorem withoutV_marginal : ∀ w ∈ marginals, 'v' ∈ w → w ≠ ['v'] → withoutV w ∈ marginals := by decide

theorem v_withoutV (w : PyStr) : 'v' ∉ withoutV w := by simp [withoutV]

/-- Stars in the velocity range with the values of `w` at `c`. -/
def inside (g : Grid) (m : Ingredients) (L : ℕ → ℕ → ℝ) (lw : Bool) (w : PyStr) (c : Cell) : ℝ :=
  Ingredients.sumTXZ g (fun d => if coords w d = coords w c then Pop.wt L lw d * (m.probTXZ g d * probRange g m d) else 0)

/-- All stars with the values of `w` at `c`. -/
def anywhere (g : Grid) (m : Ingredients) (L : ℕ → ℕ → ℝ) (lw : Bool) (w : PyStr) (c : Cell) : ℝ :=
  Ingredients.sumTXZ g (fun d => if coords w d = coords w c then Pop.wt L lw d * m.probTXZ g d else 0)

theorem sumTXZ_le (hg : g.Proper) {f f' : Cell → ℝ} (h : ∀ d, g.Has d → f d ≤ f' d) :
    Ingredients.sumTXZ g f ≤ Ingredients.sumTXZ g f' :=
  Finset.sum_le_sum fun t _ => Finset.sum_le_sum fun x _ => Finset.sum_le_sum fun y _ => Finset.sum_le_sum fun z _ =>
    h _ ⟨t.2, hg.nv, x.2, y.2, z.2⟩

theorem inside_le (h : ParamIs p g m L) (lw : Bool) (w : PyStr) (c : Cell) : inside g m L lw w c ≤ anywhere g m L lw w c := by
  refine sumTXZ_le h.proper fun d hd => ?_
  have h0 := h.norm.probTXZ_nonneg h.proper hd
  have hw : 0 ≤ Pop.wt L lw d := by unfold Pop.wt; split <;> [exact h.lightNonneg _ _; exact zero_le_one]
  split
  · exact mul_le_mul_of_nonneg_left (mul_le_of_le_one_right h0 (probRange_lt_one h d).le) hw
  · exact le_rfl

theorem inside_ge (h : ParamIs p g m L) (hk : 0 ≤ k) (hr : Reaches g m k) (lw : Bool) (w : PyStr) (c : Cell) :
    (1 - tailBound k) * anywhere g m L lw w c ≤ inside g m L lw w c := by
  unfold anywhere inside
  rw [← sumTXZ_mul]
  refine sumTXZ_le h.proper fun d hd => ?_
  have h0 := h.norm.probTXZ_nonneg h.proper hd
  have hw : 0 ≤ Pop.wt L lw d := by unfold Pop.wt; split <;> [exact h.lightNonneg _ _; exact zero_le_one]
  split
  · have := mul_le_mul_of_nonneg_left (probRange_ge h hk hr hd) (mul_nonneg hw h0)
    nlinarith
  · simp

theorem anywhere_nonneg (h : ParamIs p g m L) (lw : Bool) (w : PyStr) (c : Cell) : 0 ≤ anywhere g m L lw w c := by
  refine sumTXZ_nonneg h.proper fun d hd => ?_
  have h0 := h.norm.probTXZ_nonneg h.proper hd
  have hw : 0 ≤ Pop.wt L lw d := by unfold Pop.wt; split <;> [exact h.lightNonneg _ _; exact zero_le_one]
  split <;> [exact mul_nonneg hw h0; exact le_rfl]

/-- Light of the stars in the velocity range. -/
theorem light_inside (h : ParamIs p g m L) (c : Cell) :
    g.sumCells (fun d => L d.t d.z * m.joint g d) = inside g m L true [] c := by
  rw [sumCells_sumV]
  unfold inside
  refine sumTXZ_has h.proper fun d hd => ?_
  rw [if_pos (by rfl), ← sum_probV h hd, Finset.mul_sum, Finset.mul_sum]
  rfl

theorem light_anywhere (c : Cell) : Ingredients.sumTXZ g (fun d => L d.t d.z * m.probTXZ g d) = anywhere g m L true [] c := by
  unfold anywhere
  exact sumTXZ_congr fun d => (if_pos rfl).symm

theorem marginal_anywhere (lw : Bool) {w : PyStr} (hv : 'v' ∉ w) (c : Cell) :
    m.marginal g L lw w c = anywhere g m L lw w c / (if lw then anywhere g m L true [] c else 1) := by
  unfold Ingredients.marginal
  rw [if_neg hv, div_eq_mul_inv, mul_comm]
  unfold anywhere
  rw [← sumTXZ_mul]
  refine sumTXZ_congr fun d => ?_
  split
  · unfold Ingredients.weightTXZ Pop.wt
    cases lw
    · simp
    · simp only [if_true, light_anywhere c]
      unfold anywhere
      simp only [if_true, Pop.wt]
      ring
  · simp

theorem marginal_inside (h : ParamIs p g m L) (lw : Bool) {w : PyStr} (hw : w ∈ marginals) (hv : 'v' ∈ w) (c : Cell) :
    ∑ v : Fin g.nv, m.marginal g L lw w { c with v := v } =
      inside g m L lw (withoutV w) c / (if lw then inside g m L true [] c else 1) := by
  have e : ∀ v : Fin g.nv, m.marginal g L lw w { c with v := v } = Ingredients.sumTXZ g (fun d =>
      if coords (withoutV w) d = coords (withoutV w) c then m.weight g L lw { d with v := v } else 0) := fun v => by
    unfold Ingredients.marginal
    rw [if_pos hv, sumCells_sumV]
    refine sumTXZ_congr fun d => ?_
    rw [Finset.sum_eq_single v]
    · exact if_congr (by rw [coords_withoutV w hw hv]; simp) rfl rfl
    · intro v' _ hne
      rw [if_neg]
      rw [coords_withoutV w hw hv]
      exact fun e => hne (Fin.ext e.1)
    · simp
  simp only [e]
  rw [← sumTXZ_sum, div_eq_mul_inv, mul_comm]
  unfold inside
  rw [← sumTXZ_mul]
  refine sumTXZ_has h.proper fun d hd => ?_
  split
  · rw [← sum_probV h hd, Finset.mul_sum, Finset.mul_sum, Finset.mul_sum]
    refine Finset.sum_congr rfl fun v _ => ?_
    unfold Ingredients.weight Pop.wt
    cases lw
    · simp only [Bool.false_eq_true, if_false, inv_one, one_mul]; rfl
    · simp only [if_true, light_inside h c]
      unfold inside
      simp only [if_true, Pop.wt]
      rw [div_eq_mul_inv, mul_comm]
      rfl
  · simp

/-! ### C80 -/

/-- `p(v|t,x)` summed over the velocity bins. -/
theorem C80_given (h : ParamIs p g m L) (hk : 0 ≤ k) (hr : Reaches g m k) :
    ∃ q, getP p.self ['v','_','t','x'] false false = .ok q ∧ q.shape = [g.nv, g.nt, g.nx, g.ny] ∧
    ∀ t < g.nt, ∀ x < g.nx, ∀ y < g.ny, ∃ s : ℝ, ∑ v : Fin g.nv, q.get [v, t, x, y] = .fin s ∧
      1 - tailBound k ≤ s ∧ s < 1 := by
  obtain ⟨q, h1, h2, h3⟩ := C33_velocity_bins h
  refine ⟨q, h1, h2, fun t ht x hx y hy => ⟨_, (h3 ⟨t, 0, x, y, 0⟩ ⟨ht, h.proper.nv, hx, hy, h.proper.nz⟩).2.1, ?_, ?_⟩⟩
  · exact probRange_ge h hk hr ⟨ht, h.proper.nv, hx, hy, h.proper.nz⟩
  · exact probRange_lt_one h _

/-- `p(v)`, by mass, summed over the velocity bins. -/
theorem C80_total (h : ParamIs p g m L) (hk : 0 ≤ k) (hr : Reaches g m k) :
    ∃ q, getP p.self ['v'] false false = .ok q ∧ q.shape = [g.nv] ∧
    ∃ s : ℝ, ∑ v : Fin g.nv, q.get [v] = .fin s ∧ 1 - tailBound k ≤ s ∧ s < 1 := by
  obtain ⟨q, h1, h2, h3⟩ := C32_marginals h false false (by simp) ['v'] (by decide)
  have hc : ∀ v : Fin g.nv, g.Has ⟨0, v, 0, 0, 0⟩ := fun v =>
    ⟨h.proper.nt, v.2, h.proper.nx, h.proper.ny, h.proper.nz⟩
  have h1' : anywhere g m L false [] ⟨0, 0, 0, 0, 0⟩ = 1 := by
    have := PS_total h false (by simp)
    have e := paramMarg_eq (m := m) (L := L) h.proper false [] ⟨0, 0, 0, 0, 0⟩
    rw [marginal_anywhere false (by simp)] at e
    simp only [Bool.false_eq_true, if_false, div_one] at e
    rw [← e]
    simp only [paramMarg, Grid.marg, coords, pick, List.flatMap_nil, if_true, Bool.false_eq_true, if_false, List.not_mem_nil, wtdP] at this ⊢
    exact this
  refine ⟨q, h1, h2, _, Num.sum_congr_fin _ _ _ fun v _ => h3 ⟨0, v, 0, 0, 0⟩ (hc v), ?_, ?_⟩
  · simp only [Bool.false_eq_true, if_false, div_one]
    have := marginal_inside h false (w := ['v']) (by decide) (by decide) ⟨0, 0, 0, 0, 0⟩
    simp only [Bool.false_eq_true, if_false, div_one] at this
    rw [this]
    have := inside_ge h hk hr false [] ⟨0, 0, 0, 0, 0⟩
    rw [h1', mul_one] at this
    exact this
  · simp only [Bool.false_eq_true, if_false, div_one]
    have := marginal_inside h false (w := ['v']) (by decide) (by decide) ⟨0, 0, 0, 0, 0⟩
    simp only [Bool.false_eq_true, if_false, div_one] at this
    rw [this, ← h1']
    refine sumTXZ_lt h.proper (fun d hd => ?_) (fun d hd => ?_) (by unfold anywhere at h1'; rw [h1']; exact one_pos)
    · have h0 := h.norm.probTXZ_nonneg h.proper hd
      simp only [withoutV, List.filter_cons, coords, List.flatMap_nil, ne_eq, not_true_eq_false, decide_false, List.filter_nil, Bool.false_eq_true, if_false, if_true, Pop.wt, one_mul]
      exact mul_le_of_le_one_right h0 (probRange_lt_one h d).le
    · simp only [withoutV, List.filter_cons, coords, List.flatMap_nil, ne_eq, not_true_eq_false, decide_false, List.filter_nil, Bool.false_eq_true, if_false, if_true, Pop.wt, one_mul]
      exact fun e => mul_lt_of_lt_one_right e (probRange_lt_one h d)

/-- Every distribution with the velocity, summed over the velocity bins, is the distribution without it up to the fraction
`2 exp(-k²/2)`: never above it by mass; by light the missing stars also change the normalisation. -/
theorem C80_marginals (h : ParamIs p g m L) (hk : 0 ≤ k) (hr : Reaches g m k) (lw : Bool)
    (hl : lw = true → Shines g m L ∧ tailBound k < 1) (w : PyStr) (hw : w ∈ marginals) (hv : 'v' ∈ w) (hw1 : w ≠ ['v']) :
    ∃ q r, getP p.self w false lw = .ok q ∧ getP p.self (withoutV w) false lw = .ok r ∧
      q.shape = g.shapeOf w ∧ r.shape = g.shapeOf (withoutV w) ∧
    ∀ c, g.Has c → ∃ s u : ℝ, ∑ v : Fin g.nv, q.get (coords w { c with v := v }) = .fin s ∧
      r.get (coords (withoutV w) c) = .fin u ∧ (1 - tailBound k) * u ≤ s ∧
      s ≤ if lw then u / (1 - tailBound k) else u := by
  obtain ⟨q, h1, h2, h3⟩ := C32_marginals h false lw (fun e => (hl e).1) w hw
  obtain ⟨r, h4, h5, h6⟩ := C32_marginals h false lw (fun e => (hl e).1) _ (withoutV_marginal w hw hv hw1)
  refine ⟨q, r, h1, h4, h2, h5, fun c hc => ?_⟩
  refine ⟨_, _, Num.sum_congr_fin _ _ _ fun v _ => h3 { c with v := v } ⟨hc.1, v.2, hc.2.2⟩, h6 c hc, ?_⟩
  simp only [Bool.false_eq_true, if_false, div_one]
  rw [marginal_inside h lw hw hv, marginal_anywhere lw (v_withoutV w)]
  have a1 := inside_le h lw (withoutV w) c
  have a2 := inside_ge h hk hr lw (withoutV w) c
  have a3 := anywhere_nonneg h lw (withoutV w) c
  cases lw
  · simp only [Bool.false_eq_true, if_false, div_one]
    exact ⟨a2, a1⟩
  · obtain ⟨hs, ht⟩ := hl rfl
    simp only [if_true]
    have b1 := inside_le h true [] c
    have b2 := inside_ge h hk hr true [] c
    have b3 : 0 < anywhere g m L true [] c := by rw [← light_anywhere]; exact hs
    have b4 : 0 < inside g m L true [] c := lt_of_lt_of_le (mul_pos (by linarith) b3) b2
    constructor
    · rw [mul_div_assoc', div_le_div_iff₀ b3 b4]
      have := mul_nonneg (sub_nonneg.2 ht.le) a3
      nlinarith [mul_le_mul_of_nonneg_left b1 this, mul_le_mul_of_nonneg_right a2 b3.le]
    · rw [div_div, div_le_div_iff₀ b4 (mul_pos b3 (by linarith))]
      nlinarith [mul_le_mul_of_nonneg_left b2 a3, mul_le_mul_of_nonneg_right a1 (mul_pos b3 (sub_pos.2 ht)).le]

/-- A component rebuilt from the table `get_log_p('tvxz')` has, by mass, the distributions without velocity of the original
up to that fraction (C73 proves that those with velocity are equal). -/
theorem C80_tabulated (h : ParamIs p g m L) (hk : 0 ≤ k) (hr : Reaches g m k) : ∃ table,
    getLogP p.self ['t','v','x','z'] true false = .ok table ∧ Component.init p.cube table = .ok table ∧
    ∀ w ∈ marginals, 'v' ∉ w → ∃ q r, getP (baseSelf p.cube table) w false false = .ok q ∧ getP p.self w false false = .ok r ∧
      q.shape = g.shapeOf w ∧ r.shape = g.shapeOf w ∧ ∀ c, g.Has c → ∃ s u : ℝ, q.get (coords w c) = .fin s ∧
        r.get (coords w c) = .fin u ∧ (1 - tailBound k) * u ≤ s ∧ s ≤ u := by
  obtain ⟨A, hA, hI, hB⟩ := h.table
  refine ⟨A, hA, hI, fun w hw hv => ?_⟩
  obtain ⟨q, h1, h2, h3⟩ := getP_marg_of_contract (hB.contract false (by simp)) false w hw
  obtain ⟨r, h4, h5, h6⟩ := C32_marginals h false false (by simp) w hw
  refine ⟨q, r, h1, h4, h2, h5, fun c hc => ⟨_, _, h3 c hc, h6 c hc, ?_⟩⟩
  simp only [Bool.false_eq_true, if_false, div_one, dvol]
  rw [marginal_anywhere false hv]
  simp only [Bool.false_eq_true, if_false, div_one]
  have e : g.marg (wtdP g L (massP g ((m.pop g).rho g)) false) w c = inside g m L false w c := by
    unfold Grid.marg inside
    rw [sumCells_sumV]
    refine sumTXZ_has h.proper fun d hd => ?_
    simp only [coords_noV hv]
    split
    · rw [← h.rho_stars hd, tablePop_stars]
      simp [Pop.wt, wtdP]
    · simp
  rw [e]
  exact ⟨inside_ge h hk hr false w c, inside_le h false w c⟩

/-- How wide is wide enough: to lose less than `δ`, reach `√(2 log (2/δ))` standard deviations; five of them lose less than
one star in 100000. -/
theorem C80_enough {δ : ℝ} (hδ : 0 < δ) (hk : Real.sqrt (2 * Real.log (2 / δ)) ≤ k) : tailBound k ≤ δ ∧ tailBound 5 < 1 / 100000 := by
  constructor
  · have h0 := (Real.sqrt_nonneg _).trans hk
    have h1 : 2 * Real.log (2 / δ) ≤ k ^ 2 := by
      rcases le_total 0 (2 * Real.log (2 / δ)) with h | h
      · rw [← Real.sq_sqrt h]; exact pow_le_pow_left₀ (Real.sqrt_nonneg _) hk 2
      · exact h.trans (sq_nonneg k)
    have h2 : Real.exp (-k ^ 2 / 2) ≤ Real.exp (-Real.log (2 / δ)) := Real.exp_le_exp.2 (by linarith)
    rw [Real.exp_neg, Real.exp_log (by positivity), inv_div] at h2
    unfold tailBound
    linarith
  · unfold tailBound
    rw [show (-(5 : ℝ) ^ 2 / 2) = -(12 + 1 / 2) by norm_num, Real.exp_neg, Real.exp_add]
    have h1 : (2.7 : ℝ) ^ 12 ≤ Real.exp 12 := by
      rw [show (12 : ℝ) = ((12 : ℕ) : ℝ) * 1 by norm_num, Real.exp_nat_mul]
      exact pow_le_pow_left₀ (by norm_num) (by have := Real.exp_one_gt_d9; linarith) 12
    have h2 : (1.5 : ℝ) ≤ Real.exp (1 / 2) := by have := Real.add_one_le_exp (1 / 2 : ℝ); linarith
    have h3 : (200000 : ℝ) < Real.exp 12 * Real.exp (1 / 2) := by
      refine lt_of_lt_of_le ?_ (mul_le_mul h1 h2 (by norm_num) (Real.exp_pos _).le)
      norm_num
    rw [← div_eq_mul_inv, div_lt_div_iff₀ (by positivity) (by norm_num)]
    linarith

/-- The hypotheses are met: a component whose velocity range reaches 1000 standard deviations. -/
example : ∃ p m, ParamIs p demoGrid m demoL ∧ Reaches demoGrid m 1000 ∧ Shines demoGrid m demoL ∧ tailBound 1000 < 1 := by
  obtain ⟨p, h, -⟩ := flatDisk_exists (fun _ => 100)
  refine ⟨p, _, h, fun t _ x _ y _ => ?_, ?_, ?_⟩
  · simp [flatIngr, demoGrid, cubeGrid, evenEdges]; norm_num
  · unfold Shines
    rw [sumTXZ_has demoGrid_proper fun d hd => by rw [flat_probTXZ _ hd]]
    refine Finset.sum_pos (fun t _ => Finset.sum_pos (fun x _ => Finset.sum_pos (fun y _ => Finset.sum_pos (fun z _ =>
      mul_pos (demoL_pos _ _) (by norm_num)) ⟨⟨0, by decide⟩, Finset.mem_univ _⟩) ⟨⟨0, by decide⟩, Finset.mem_univ _⟩)
      ⟨⟨0, by decide⟩, Finset.mem_univ _⟩) ⟨⟨0, by decide⟩, Finset.mem_univ _⟩
  · refine lt_of_le_of_lt ?_ ((C80_enough one_pos le_rfl).2.trans (by norm_num))
    unfold tailBound
    gcongr
    norm_num

end PKM
