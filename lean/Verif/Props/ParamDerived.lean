import Verif.PopLMoment
import Verif.FlatDisk

/-!
# C68: variances, covariances, correlations and L-moments of parametric components

`ParamIs p g m L` says that `p` is a component whose setters have been called: `m` are its densities and velocity fields, `g`
the grid, `L` the light of the SSPs. `m.pop g` (PopSpec) is its population of stars; `mean`, `variance`, `central`, `cov`,
`binCov` and `binShare` (CovSpec) are means, variances, ... of those stars that have the values of the conditioners `b` in the
cell `c`, by mass (`lw = false`) or by light. `obj p.self` has the methods that `Component` defines for all components.
-/

open scoped Classical
open MeasureTheory

noncomputable section

namespace PKM
open Np Component

variable {p : Param} {g : Grid} {m : Ingredients} {L : ℕ → ℕ → ℝ} {lw : Bool}

/-- Variance and dispersion of any quantity (32 strings, both weightings): the variance of the stars and its root, wherever
there are stars. -/
theorem C68_spread (h : ParamIs p g m L) (hf : p.f2 = 1) (hl : lw = true → (m.pop g).Shines g L)
    (k : Char) (hk : k ∈ ['t','v','x','y','z']) (b : PyStr) (hb : ValidPair (varOf k) b) :
    ∃ V D, (obj p.self).getVariance (distStr (varOf k) b) lw = .ok V ∧ (obj p.self).getDispersion (distStr (varOf k) b) lw = .ok D ∧
      V.shape = compShape (varOf k) ++ g.shapeOf b ∧ D.shape = V.shape ∧
      ∀ c, g.Has c → (m.pop g).amount g L lw b c ≠ 0 →
        V.get (compIdx k ++ coords b c) = .fin ((m.pop g).variance g L lw b k c) ∧
        0 ≤ (m.pop g).variance g L lw b k c ∧
        (m.pop g).variance g L lw b k c = (m.pop g).expect g L lw b k (fun x => x ^ 2) c - (m.pop g).mean g L lw b k c ^ 2 ∧
        D.get (compIdx k ++ coords b c) = .fin (Real.sqrt ((m.pop g).variance g L lw b k c)) :=
  (h.popAt hf hl b).spread hk hb trivial

/-- Skewness, kurtosis and excess kurtosis: third and fourth central moments in units of the dispersion. Kurtosis is at least
one plus the square of skewness. All are nan where the stars do not differ. -/
theorem C68_shape (h : ParamIs p g m L) (hf : p.f2 = 1) (hl : lw = true → (m.pop g).Shines g L)
    (k : Char) (hk : k ∈ ['t','v','x','y','z']) (b : PyStr) (hb : ValidPair (varOf k) b) :
    ∃ S K X, (obj p.self).getSkewness (distStr (varOf k) b) lw = .ok S ∧ (obj p.self).getKurtosis (distStr (varOf k) b) lw = .ok K ∧
      (obj p.self).getExcessKurtosis p.f2 (distStr (varOf k) b) lw = .ok X ∧
      ∀ c, g.Has c → (m.pop g).amount g L lw b c ≠ 0 →
        ((m.pop g).variance g L lw b k c ≠ 0 → ∃ s u : ℝ,
          s = (m.pop g).central g L lw b k 3 c / Real.sqrt ((m.pop g).variance g L lw b k c) ^ 3 ∧
          u = (m.pop g).central g L lw b k 4 c / Real.sqrt ((m.pop g).variance g L lw b k c) ^ 4 ∧
          S.get (compIdx k ++ coords b c) = .fin s ∧ K.get (compIdx k ++ coords b c) = .fin u ∧
          X.get (compIdx k ++ coords b c) = .fin (u - 3) ∧ 1 + s ^ 2 ≤ u) ∧
        ((m.pop g).variance g L lw b k c = 0 → S.get (compIdx k ++ coords b c) = .nan ∧
          K.get (compIdx k ++ coords b c) = .nan ∧ X.get (compIdx k ++ coords b c) = .nan) :=
  (h.popAt hf hl b).shape hk hb trivial p.f2

/-- Velocities always differ: skewness, kurtosis and excess kurtosis of velocities are numbers wherever there are stars. -/
theorem C68_velocity_spread_pos (h : ParamIs p g m L) (hf : p.f2 = 1) (hl : lw = true → (m.pop g).Shines g L)
    (b : PyStr) (hb : ValidPair ['v'] b) (c : Cell) (hc : g.Has c) (h0 : (m.pop g).amount g L lw b c ≠ 0) :
    0 < (m.pop g).variance g L lw b 'v' c := by
  have hA := (lt_of_le_of_ne (h.pop_ok.amount_nonneg h.proper h.lightNonneg b c) h0.symm)
  have hvb := noV_of_valid hb
  unfold Pop.variance Pop.central Pop.expect
  rw [if_pos rfl]
  refine div_pos ?_ hA
  -- each star has a positive spread of velocities about any number
  have hpos : ∀ d : Cell, 0 < ∫ v, (v - (m.pop g).mean g L lw b 'v' c) ^ 2 ∂(normal (m.mu d.t d.x d.y) (m.sig d.t d.x d.y)) := by
    intro d
    have hs := h.norm.sig d.t d.x d.y
    have : ∫ v, (v - (m.pop g).mean g L lw b 'v' c) ^ 2 ∂(normal (m.mu d.t d.x d.y) (m.sig d.t d.x d.y)) =
        (m.mu d.t d.x d.y - (m.pop g).mean g L lw b 'v' c) ^ 2 + m.sig d.t d.x d.y ^ 2 := by
      rw [normal_moment]
      simp [Finset.sum_range_succ, stdMom, Nat.doubleFactorial]
    rw [this]; positivity
  have hA' := hA
  unfold Pop.amount at hA'
  rw [if_neg hvb] at hA'
  have hle : ∀ d, g.Has d → 0 ≤ Pop.wt L lw d * (m.pop g).stars d := fun d hd =>
    mul_nonneg (wt_nonneg h.lightNonneg d) (h.pop_ok.stars d hd)
  rw [ingr_stars] at hA' hle
  by_contra hn
  refine hA'.ne' ?_
  -- otherwise no stars
  have hz : Ingredients.sumTXZ g (fun d => if coords b d = coords b c then
      Pop.wt L lw d * (m.pop g).vel (fun x => (x - (m.pop g).mean g L lw b 'v' c) ^ 2) d else 0) = 0 := by
    refine le_antisymm (not_lt.1 hn) (sumTXZ_nonneg h.proper fun d hd => ?_)
    split
    · show 0 ≤ Pop.wt L lw d * (m.probTXZ g d * _)
      rw [← mul_assoc]
      exact mul_nonneg (hle d hd) (hpos d).le
    · exact le_rfl
  have hcell : ∀ (t : Fin g.nt) (x : Fin g.nx) (y : Fin g.ny) (z : Fin g.nz),
      (if coords b ⟨t, 0, x, y, z⟩ = coords b c then
        Pop.wt L lw ⟨t, 0, x, y, z⟩ * (m.pop g).vel (fun x => (x - (m.pop g).mean g L lw b 'v' c) ^ 2) ⟨t, 0, x, y, z⟩ else 0) = 0 := by
    have nn : ∀ (t : Fin g.nt) (x : Fin g.nx) (y : Fin g.ny) (z : Fin g.nz),
      0 ≤ (if coords b ⟨t, 0, x, y, z⟩ = coords b c then
        Pop.wt L lw ⟨t, 0, x, y, z⟩ * (m.pop g).vel (fun x => (x - (m.pop g).mean g L lw b 'v' c) ^ 2) ⟨t, 0, x, y, z⟩ else 0) := by
      intro t x y z
      split
      · show 0 ≤ Pop.wt L lw _ * (m.probTXZ g _ * _)
        rw [← mul_assoc]
        exact mul_nonneg (hle ⟨t, 0, x, y, z⟩ ⟨t.2, h.proper.nv, x.2, y.2, z.2⟩) (hpos ⟨t, 0, x, y, z⟩).le
      · exact le_rfl
    intro t x y z
    unfold Ingredients.sumTXZ at hz
    have z1 := (Finset.sum_eq_zero_iff_of_nonneg fun t _ => Finset.sum_nonneg fun x _ => Finset.sum_nonneg fun y _ =>
      Finset.sum_nonneg fun z _ => nn t x y z).1 hz t (Finset.mem_univ _)
    have z2 := (Finset.sum_eq_zero_iff_of_nonneg fun x _ => Finset.sum_nonneg fun y _ =>
      Finset.sum_nonneg fun z _ => nn t x y z).1 z1 x (Finset.mem_univ _)
    have z3 := (Finset.sum_eq_zero_iff_of_nonneg fun y _ =>
      Finset.sum_nonneg fun z _ => nn t x y z).1 z2 y (Finset.mem_univ _)
    exact (Finset.sum_eq_zero_iff_of_nonneg fun z _ => nn t x y z).1 z3 z (Finset.mem_univ _)
  unfold Ingredients.sumTXZ
  refine Finset.sum_eq_zero fun t _ => Finset.sum_eq_zero fun x _ => Finset.sum_eq_zero fun y _ => Finset.sum_eq_zero fun z _ => ?_
  have := hcell t x y z
  beta_reduce
  split at this
  · next e =>
    rw [if_pos e]
    have e' : Pop.wt L lw ⟨t, 0, x, y, z⟩ * (m.probTXZ g ⟨t, 0, x, y, z⟩ * _) = 0 := this
    rw [← mul_assoc] at e'
    exact (mul_eq_zero.1 e').resolve_right (hpos ⟨t, 0, x, y, z⟩).ne'
  · next e => rw [if_neg e]

/-- Covariances of two variables, neither of them the velocity: those of the stars. Missing: covariances with the velocity
(next theorem). -/
theorem C68_covariance_partial (h : ParamIs p g m L) (hf : p.f2 = 1) (hl : lw = true → (m.pop g).Shines g L)
    (a0 a1 : Char) (b : PyStr) (hab : ValidPair [a0, a1] b) (h0 : a0 ≠ 'v') (h1 : a1 ≠ 'v') :
    ∃ r, (obj p.self).getCovariance (distStr [a0, a1] b) lw = .ok r ∧ r.shape = compShape [a0] ++ compShape [a1] ++ g.shapeOf b ∧
      ∀ k k', varOf k = [a0] → varOf k' = [a1] → k ∈ ['t','v','x','y','z'] → k' ∈ ['t','v','x','y','z'] →
        ∀ c, g.Has c → (m.pop g).amount g L lw b c ≠ 0 →
          r.get (compIdx k ++ compIdx k' ++ coords b c) = .fin ((m.pop g).cov g L lw b k k' c) := by
  obtain ⟨r, r1, r2, r3⟩ := (h.popAt hf hl b).covariance hab
  refine ⟨r, r1, r2, fun k k' e e' hk hk' c hc hA => ?_⟩
  have m1 : k ∈ PyStr.replaceX [a0] := e ▸ (quantity_facts hk).2.1
  have m2 : k' ∈ PyStr.replaceX [a1] := e' ▸ (quantity_facts hk').2.1
  rw [r3 k m1 k' m2 c hc hA, Pop.givenCov, if_neg (fun e => h0 ((mem_replaceX m1).1 e)), if_neg (fun e => h1 ((mem_replaceX m2).1 e))]

/-- Covariances with the velocity: those of the centres of the velocity bins, of stars in the velocity range only, about the
means of all stars. -/
theorem C68_covariance_velocity (h : ParamIs p g m L) (hf : p.f2 = 1) (hl : lw = true → (m.pop g).Shines g L)
    (a0 : Char) (b : PyStr) :
    (ValidPair [a0, 'v'] b → ∃ r, (obj p.self).getCovariance (distStr [a0, 'v'] b) lw = .ok r ∧
      r.shape = compShape [a0] ++ g.shapeOf b ∧
      ∀ k, varOf k = [a0] → k ∈ ['t','x','y','z'] → ∀ c, g.Has c → (m.pop g).amount g L lw b c ≠ 0 →
        r.get (compIdx k ++ coords b c) = .fin ((m.pop g).binCov g L lw b k c)) ∧
    (ValidPair ['v', a0] b → ∃ r, (obj p.self).getCovariance (distStr ['v', a0] b) lw = .ok r ∧
      r.shape = compShape [a0] ++ g.shapeOf b ∧
      ∀ k, varOf k = [a0] → k ∈ ['t','x','y','z'] → ∀ c, g.Has c → (m.pop g).amount g L lw b c ≠ 0 →
        r.get (compIdx k ++ coords b c) = .fin ((m.pop g).binCov g L lw b k c)) := by
  have hi : compIdx 'v' = [] := by decide
  have hs : compShape ['v'] = [] := by decide
  constructor
  · intro hab
    obtain ⟨r, r1, r2, r3⟩ := (h.popAt hf hl b).covariance hab
    refine ⟨r, r1, by simpa [hs] using r2, fun k e hk c hc hA => ?_⟩
    have hk5 : k ∈ ['t','v','x','y','z'] := by simp only [List.mem_cons, List.not_mem_nil, or_false] at hk ⊢; tauto
    have hkv : k ≠ 'v' := by rintro rfl; exact absurd hk (by decide)
    have := r3 k (e ▸ (quantity_facts hk5).2.1) 'v' (by decide) c hc hA
    rw [hi, List.append_nil] at this
    rw [this, Pop.givenCov, if_neg hkv, if_pos rfl]
  · intro hab
    obtain ⟨r, r1, r2, r3⟩ := (h.popAt hf hl b).covariance hab
    refine ⟨r, r1, by simpa [hs] using r2, fun k e hk c hc hA => ?_⟩
    have hk5 : k ∈ ['t','v','x','y','z'] := by simp only [List.mem_cons, List.not_mem_nil, or_false] at hk ⊢; tauto
    have := r3 'v' (by decide) k (e ▸ (quantity_facts hk5).2.1) c hc hA
    rw [hi, List.nil_append] at this
    rw [this, Pop.givenCov, if_pos rfl]

/-- Correlations of two variables, neither of them the velocity: Pearson's correlation of the stars, between -1 and 1; nan
where one of the variables does not vary. Missing: correlations with the velocity. -/
theorem C68_correlation_partial (h : ParamIs p g m L) (hf : p.f2 = 1) (hl : lw = true → (m.pop g).Shines g L)
    (a0 a1 : Char) (b : PyStr) (hab : ValidPair [a0, a1] b) (h0 : a0 ≠ 'v') (h1 : a1 ≠ 'v') :
    ∃ r, (obj p.self).getCorrelation (distStr [a0, a1] b) lw = .ok r ∧ r.shape = compShape [a0] ++ compShape [a1] ++ g.shapeOf b ∧
      ∀ k k', varOf k = [a0] → varOf k' = [a1] → k ∈ ['t','v','x','y','z'] → k' ∈ ['t','v','x','y','z'] →
        ∀ c, g.Has c → (m.pop g).amount g L lw b c ≠ 0 →
          ((m.pop g).variance g L lw b k c ≠ 0 ∧ (m.pop g).variance g L lw b k' c ≠ 0 → ∃ x : ℝ,
            x = (m.pop g).cov g L lw b k k' c / Real.sqrt ((m.pop g).variance g L lw b k c * (m.pop g).variance g L lw b k' c) ∧
            r.get (compIdx k ++ compIdx k' ++ coords b c) = .fin x ∧ -1 ≤ x ∧ x ≤ 1) ∧
          ((m.pop g).variance g L lw b k c = 0 ∨ (m.pop g).variance g L lw b k' c = 0 →
            r.get (compIdx k ++ compIdx k' ++ coords b c) = .nan) := by
  have hP := h.popAt hf hl b
  obtain ⟨r, r1, r2, r3⟩ := hP.correlation hab trivial trivial
  refine ⟨r, r1, r2, fun k k' e e' hk hk' c hc hA => ?_⟩
  have m1 : k ∈ PyStr.replaceX [a0] := e ▸ (quantity_facts hk).2.1
  have m2 : k' ∈ PyStr.replaceX [a1] := e' ▸ (quantity_facts hk').2.1
  have k1 : k ≠ 'v' := fun e => h0 ((mem_replaceX m1).1 e)
  have k2 : k' ≠ 'v' := fun e => h1 ((mem_replaceX m2).1 e)
  exact hP.bounded k1 k2 hc hA (by rw [r3 k m1 k' m2 c hc hA, Pop.givenCov, if_neg k1, if_neg k2])

/-- Correlations with the velocity: the covariance of the bin centres over the dispersions of the stars. -/
theorem C68_correlation_velocity (h : ParamIs p g m L) (hf : p.f2 = 1) (hl : lw = true → (m.pop g).Shines g L)
    (a0 : Char) (b : PyStr) (hab : ValidPair [a0, 'v'] b) :
    ∃ r, (obj p.self).getCorrelation (distStr [a0, 'v'] b) lw = .ok r ∧ r.shape = compShape [a0] ++ g.shapeOf b ∧
      ∀ k, varOf k = [a0] → k ∈ ['t','x','y','z'] → ∀ c, g.Has c → (m.pop g).amount g L lw b c ≠ 0 →
        (m.pop g).variance g L lw b k c ≠ 0 → r.get (compIdx k ++ coords b c) = .fin ((m.pop g).binCov g L lw b k c /
          Real.sqrt ((m.pop g).variance g L lw b k c * (m.pop g).variance g L lw b 'v' c)) := by
  have hi : compIdx 'v' = [] := by decide
  have hs : compShape ['v'] = [] := by decide
  have hP := h.popAt hf hl b
  obtain ⟨r, r1, r2, r3⟩ := hP.correlation hab trivial trivial
  refine ⟨r, r1, by simpa [hs] using r2, fun k e hk c hc hA hV => ?_⟩
  have hk5 : k ∈ ['t','v','x','y','z'] := by simp only [List.mem_cons, List.not_mem_nil, or_false] at hk ⊢; tauto
  have hkv : k ≠ 'v' := by rintro rfl; exact absurd hk (by decide)
  have := r3 k (e ▸ (quantity_facts hk5).2.1) 'v' (by decide) c hc hA
  rw [hi, List.append_nil] at this
  have hv := C68_velocity_spread_pos h hf hl b (validPair_sub hab).2 c hc hA
  have hn := hP.variance_nonneg (fun e => absurd e hkv) hc hA
  have : (0 : ℝ) < (m.pop g).variance g L lw b k c * (m.pop g).variance g L lw b 'v' c :=
    mul_pos (lt_of_le_of_ne hn hV.symm) hv
  rw [‹r.get _ = _›, Pop.givenCov, if_neg hkv, if_pos rfl, Num.fin_div _ _ (Real.sqrt_pos.2 this).ne']

/-- L-moments (any order) of age and metallicity: Hosking's L-moments of the fractions of the stars in the bins, so the L-mean
is the mean and the L-dispersion is not negative. Missing: L-moments of the velocity. -/
theorem C68_l_moments_partial (h : ParamIs p g m L) (hl : lw = true → (m.pop g).Shines g L)
    (k : Char) (hk : k ∈ ['t','z']) (b : PyStr) (hb : ValidPair [k] b) (j : ℕ) (hj : 1 ≤ j) :
    ∃ r, (obj p.self).getLMoment (distStr [k] b) j lw = .ok r ∧ r.shape = g.shapeOf b ∧
      ∀ c, g.Has c → (m.pop g).amount g L lw b c ≠ 0 →
      r.get (coords b c) = .fin (lmoment (g.bins k) (g.edge k) ((m.pop g).binShare g L lw b k c) j) ∧
      cdf ((m.pop g).binShare g L lw b k c) (g.bins k) = 1 ∧ (∀ i, 0 ≤ (m.pop g).binShare g L lw b k c i) ∧
      lmoment (g.bins k) (g.edge k) ((m.pop g).binShare g L lw b k c) 1 = (m.pop g).mean g L lw b k c ∧
      0 ≤ lmoment (g.bins k) (g.edge k) ((m.pop g).binShare g L lw b k c) 2 :=
  (h.shareTab hl hk hb).lmoments h.proper h.cubeIs h.pop_ok h.lightNonneg (fun _ _ h => h) hk hb j hj

/-- All L-moments, including those of the velocity, are those of the distribution that `get_p` returns. -/
theorem C68_l_moments_of_distribution (h : ParamIs p g m L) (hl : lw = true → (m.pop g).Shines g L)
    (k : Char) (hk : k ∈ ['t','v','z']) (b : PyStr) (hb : ValidPair [k] b) (j : ℕ) (hj : 1 ≤ j) :
    ∃ A r, getP p.self (distStr [k] b) false lw = .ok A ∧ (obj p.self).getLMoment (distStr [k] b) j lw = .ok r ∧
      r.shape = g.shapeOf b ∧ ∀ c, g.Has c → ∀ π : ℕ → ℝ, (∀ i < g.bins k, A.get (i :: coords b c) = .fin (π i)) →
        r.get (coords b c) = .fin (lmoment (g.bins k) (g.edge k) π j) :=
  h.lmoments_of hl hk hb j hj

/-! ### The hypotheses are met -/

/-- The disk of C49 after all its setters: both weightings, covariances of age with metallicity and with velocity. -/
example : ∃ p m, ParamIs p demoGrid m demoL ∧ p.f2 = 1 ∧ (true = true → (m.pop demoGrid).Shines demoGrid demoL) ∧
    ValidPair (varOf 'v') ['t','x'] ∧ ValidPair ['t','z'] ['x'] ∧ ValidPair ['t','v'] ['x'] ∧ ValidPair ['z'] ['v'] ∧
    ∃ c, demoGrid.Has c ∧ (m.pop demoGrid).amount demoGrid demoL true ['t','x'] c ≠ 0 := by
  obtain ⟨p, m, h, hS, -, hf, t0, ht, hpos⟩ := demoDisk_pos 1
  have hc : demoGrid.Has ⟨t0, 0, 0, 0, 0⟩ := by
    refine ⟨ht, ?_, ?_, ?_, ?_⟩ <;> norm_num [demoGrid, cubeGrid]
  refine ⟨p, m, h, hf, fun _ => ?_, by decide, by decide, by decide, by decide, ⟨t0, 0, 0, 0, 0⟩, hc, ?_⟩
  · unfold Pop.Shines
    rw [Pop.lightOf_eq h.proper h.pop_ok, ingr_cells]
    exact hS.tot h.proper
  · rw [Pop.amount_eq h.proper h.pop_ok]
    refine (sumCells_pos_of (c := ⟨t0, 0, 0, 0, 0⟩) (fun d hd => ?_) hc ?_).ne'
    · beta_reduce
      split
      · exact mul_nonneg (wt_nonneg (fun t z => (demoL_pos t z).le) d) (h.pop_ok.cells_nonneg _ hd)
      · exact le_rfl
    rw [if_pos rfl]
    refine mul_pos (by simp only [Pop.wt, if_true]; exact demoL_pos _ _) ?_
    rw [ingr_cells]
    show 0 < m.probTXZ demoGrid _ / _
    have := hpos ⟨t0, 0, 0, 0, 0⟩ hc rfl
    have hv : (0 : ℝ) < demoGrid.nv := by norm_num [demoGrid, cubeGrid]
    positivity

/-! ### Where it fails -/

section
variable {μ : ℕ → ℝ}

theorem flat_sum {f : Cell → ℝ} {F : ℕ → ℝ} (h : ∀ c, demoGrid.Has c → f c = F c.t / 180) :
    Ingredients.sumTXZ demoGrid f = (F 0 + F 1) / 2 := by
  rw [sumTXZ_has demoGrid_proper h]
  simp only [Ingredients.sumTXZ, Finset.sum_const, Finset.card_univ, Fintype.card_fin]
  have : ∀ G : ℕ → ℝ, ∑ t : Fin demoGrid.nt, G t = G 0 + G 1 := fun G => by
    show ∑ t : Fin 2, G t = _
    simp [Fin.sum_univ_two]
  rw [this (fun t => demoGrid.nx • demoGrid.ny • demoGrid.nz • (F t / 180))]
  norm_num [demoGrid, cubeGrid]
  ring

theorem flat_amount (c : Cell) : ((flatIngr μ).pop demoGrid).amount demoGrid demoL false [] c = 1 := by
  obtain ⟨p, h, -⟩ := flatDisk_exists μ
  exact h.amount_nil c

theorem flat_expect_v (φ : ℝ → ℝ) (c : Cell) : ((flatIngr μ).pop demoGrid).expect demoGrid demoL false [] 'v' φ c =
    ((∫ v, φ v ∂(normal (μ 0) (1 / 10))) + ∫ v, φ v ∂(normal (μ 1) (1 / 10))) / 2 := by
  unfold Pop.expect
  rw [if_pos rfl, flat_amount, div_one, flat_sum (F := fun t => ∫ v, φ v ∂(normal (μ t) (1 / 10)))]
  intro d hd
  rw [if_pos (by rfl)]
  show 1 * ((flatIngr μ).probTXZ demoGrid d * _) = _
  rw [flat_probTXZ μ hd]
  show 1 * (1 / 180 * ∫ v, φ v ∂(normal (μ d.t) (1 / 10))) = _
  ring

theorem flat_expect_t (φ : ℝ → ℝ) (c : Cell) : ((flatIngr μ).pop demoGrid).expect demoGrid demoL false [] 't' φ c =
    (φ (1 / 2) + φ (5 / 2)) / 2 := by
  unfold Pop.expect
  rw [if_neg (by decide), if_neg (by decide), flat_amount, div_one, flat_sum (F := fun t => φ (centre demoGrid.t t))]
  · norm_num [demoGrid, cubeGrid, centre]
  intro d hd
  rw [if_pos (by rfl), ingr_stars, flat_probTXZ μ hd]
  show 1 * (φ (centre demoGrid.t d.t) * (1 / 180)) = _
  ring

theorem flat_probV (c : Cell) : (flatIngr μ).probV demoGrid c =
    (normal (μ c.t) (1 / 10)).real (Set.Ioc (-100 + c.v * 100) (-100 + (c.v + 1) * 100)) := by
  unfold Ingredients.probV
  have : ∀ i : ℕ, demoGrid.v i = -100 + i * 100 := fun i => by norm_num [demoGrid, cubeGrid, evenEdges]
  rw [this, this]
  push_cast
  rfl

theorem flat_joint_sum {f : Cell → ℝ} {F : ℕ → ℕ → ℝ}
    (h : ∀ c, demoGrid.Has c → f c = F c.t c.v * (flatIngr μ).joint demoGrid c) :
    demoGrid.sumCells f = ((∑ v : Fin 4, F 0 v * (normal (μ 0) (1 / 10)).real (Set.Ioc (-100 + (v : ℕ) * 100) (-100 + ((v : ℕ) + 1) * 100))) +
      ∑ v : Fin 4, F 1 v * (normal (μ 1) (1 / 10)).real (Set.Ioc (-100 + (v : ℕ) * 100) (-100 + ((v : ℕ) + 1) * 100))) / 2 := by
  rw [sumCells_sumV, flat_sum (F := fun t => ∑ v : Fin 4, F t v *
    (normal (μ t) (1 / 10)).real (Set.Ioc (-100 + (v : ℕ) * 100) (-100 + ((v : ℕ) + 1) * 100)))]
  intro c hc
  show ∑ v : Fin 4, f { c with v := v } = _
  rw [Finset.sum_div]
  refine Finset.sum_congr rfl fun v _ => ?_
  have hc' : demoGrid.Has { c with v := v } := ⟨hc.1, v.2, hc.2.2⟩
  rw [h _ hc']
  unfold Ingredients.joint
  rw [flat_probTXZ μ hc', flat_probV]
  ring

end

/-- Mean velocities 99 and 101: variances of age and velocity, and the covariance that is computed. -/
theorem flat_numbers :
    ((flatIngr (fun t => if t = 0 then 99 else 101)).pop demoGrid).variance demoGrid demoL false [] 't' ⟨0, 0, 0, 0, 0⟩ = 1 ∧
    ((flatIngr (fun t => if t = 0 then 99 else 101)).pop demoGrid).variance demoGrid demoL false [] 'v' ⟨0, 0, 0, 0, 0⟩ = 101 / 100 ∧
    47 ≤ ((flatIngr (fun t => if t = 0 then 99 else 101)).pop demoGrid).binCov demoGrid demoL false [] 't' ⟨0, 0, 0, 0, 0⟩ := by
  have hmv : ((flatIngr (fun t => if t = 0 then 99 else 101)).pop demoGrid).mean demoGrid demoL false [] 'v' ⟨0, 0, 0, 0, 0⟩ = 100 := by
    unfold Pop.mean
    rw [flat_expect_v, normal_mean, normal_mean]; norm_num
  have hmt : ((flatIngr (fun t => if t = 0 then 99 else 101)).pop demoGrid).mean demoGrid demoL false [] 't' ⟨0, 0, 0, 0, 0⟩ = 3 / 2 := by
    unfold Pop.mean
    rw [flat_expect_t]; norm_num
  have hvt : ((flatIngr (fun t => if t = 0 then 99 else 101)).pop demoGrid).variance demoGrid demoL false [] 't' ⟨0, 0, 0, 0, 0⟩ = 1 := by
    unfold Pop.variance Pop.central
    rw [flat_expect_t, hmt]; norm_num
  have hvv : ((flatIngr (fun t => if t = 0 then 99 else 101)).pop demoGrid).variance demoGrid demoL false [] 'v' ⟨0, 0, 0, 0, 0⟩ = 101 / 100 := by
    unfold Pop.variance Pop.central
    rw [flat_expect_v, hmv, normal_moment, normal_moment]
    norm_num [Finset.sum_range_succ, stdMom, Nat.doubleFactorial]
  have hcov : 47 ≤ ((flatIngr (fun t => if t = 0 then 99 else 101)).pop demoGrid).binCov demoGrid demoL false [] 't' ⟨0, 0, 0, 0, 0⟩ := by
    unfold Pop.binCov Pop.marginal
    rw [flat_amount, hmv, hmt, flat_joint_sum (μ := fun t => if t = 0 then 99 else 101)
      (F := fun t v => (centre demoGrid.v v - 100) * (centre demoGrid.t t - 3 / 2))]
    · have hv : ∀ i : ℕ, centre demoGrid.v i = -50 + i * 100 := fun i => by
        norm_num [demoGrid, cubeGrid, evenEdges, centre]; ring
      have ht0 : centre demoGrid.t 0 = 1 / 2 := by norm_num [demoGrid, cubeGrid, centre]
      have ht1 : centre demoGrid.t 1 = 5 / 2 := by norm_num [demoGrid, cubeGrid, centre]
      simp only [Fin.sum_univ_four, hv, ht0, ht1]
      simp only [Fin.val_zero, Fin.val_one, Fin.val_two, show ((3 : Fin 4) : ℕ) = 3 from rfl]
      norm_num
      have a0 := @measureReal_nonneg _ _ (normal 99 (1 / 10)) (Set.Ioc (-100) 0)
      have a1 := normal_near (μ := 99) (σ := 1 / 10) (a := 0) (b := 100) (by norm_num) (by norm_num)
      have a2 := normal_far (μ := 99) (σ := 1 / 10) (a := 100) (b := 200) (by norm_num)
      have a3 := normal_far (μ := 99) (σ := 1 / 10) (a := 200) (b := 300) (by norm_num)
      have b0 := normal_far (μ := 101) (σ := 1 / 10) (a := -100) (b := 0) (by norm_num)
      have b1 := normal_far (μ := 101) (σ := 1 / 10) (a := 0) (b := 100) (by norm_num)
      have b2 := normal_near (μ := 101) (σ := 1 / 10) (a := 100) (b := 200) (by norm_num) (by norm_num)
      have b3 := @measureReal_nonneg _ _ (normal 101 (1 / 10)) (Set.Ioc 200 300)
      norm_num at a1 a2 a3 b0 b1 b2
      linarith
    · intro c _
      rw [if_pos (by rfl)]
      show 1 * ((_ - 100) * (centre demoGrid.t c.t - 3 / 2) * _) = _
      rw [one_mul]; rfl
  exact ⟨hvt, hvv, hcov⟩

/-- Correlations with the velocity are not between -1 and 1: a component with two ages, whose mean velocities 99 and 101 are
in different bins of the velocity, has a "correlation" of age and velocity of more than 40. -/
theorem C68_correlation_wrong : ∃ p g m L, ParamIs p g m L ∧ p.f2 = 1 ∧ ∃ r,
    (obj p.self).getCorrelation ['t','v'] false = .ok r ∧ ∃ x : ℝ, r.get [] = .fin x ∧ 40 < x := by
  obtain ⟨p, h, hf⟩ := flatDisk_exists (fun t => if t = 0 then 99 else 101)
  obtain ⟨r, r1, -, r3⟩ := C68_correlation_velocity (lw := false) h hf (by simp) 't' [] (by decide)
  have hc : demoGrid.Has ⟨0, 0, 0, 0, 0⟩ := by
    refine ⟨?_, ?_, ?_, ?_, ?_⟩ <;> norm_num [demoGrid, cubeGrid]
  obtain ⟨hvt, hvv, hcov⟩ := flat_numbers
  have := r3 't' rfl (by decide) _ hc (by rw [flat_amount]; norm_num) (by rw [hvt]; norm_num)
  refine ⟨p, demoGrid, _, demoL, h, hf, r, r1, _, this, ?_⟩
  rw [hvt, hvv]
  have hs : Real.sqrt (1 * (101 / 100)) ≤ 11 / 10 := Real.sqrt_le_iff.2 (by norm_num)
  have hs0 : 0 < Real.sqrt (1 * (101 / 100)) := Real.sqrt_pos.2 (by norm_num)
  rw [lt_div_iff₀ hs0]
  linarith

/-- The L-mean of the velocity is not the mean: stars outside of the velocity range are taken to have velocity zero. A component
with mean velocity 1000 on a grid from -100 to 300 has an L-mean below 5. -/
theorem C68_l_mean_wrong : ∃ p g m L, ParamIs p g m L ∧ p.f2 = 1 ∧ ∃ l M,
    (obj p.self).getLMean ['v'] false = .ok l ∧ (obj p.self).getMean ['v'] false = .ok M ∧
    M.get [] = .fin 1000 ∧ ∃ x : ℝ, l.get [] = .fin x ∧ x ≤ 5 := by
  obtain ⟨p, h, hf⟩ := flatDisk_exists (fun _ => 1000)
  have hc : demoGrid.Has ⟨0, 0, 0, 0, 0⟩ := by
    refine ⟨?_, ?_, ?_, ?_, ?_⟩ <;> norm_num [demoGrid, cubeGrid]
  obtain ⟨A, l, hA, hl, -, hv⟩ := C68_l_moments_of_distribution (lw := false) h (by simp) 'v' (by decide) [] (by decide) 1 le_rfl
  obtain ⟨A', hA', -, hA2⟩ := C32_marginals h false false (by simp) ['v'] (by decide)
  obtain rfl : A = A' := by
    have : getP p.self ['v'] false false = .ok A := hA
    rw [this] at hA'
    exact Except.ok.inj hA'
  obtain ⟨M, F, hM, hM', hF⟩ := (h.popAt (lw := false) hf (by simp) []).mean ['v'] (by decide) rfl
  refine ⟨p, demoGrid, _, demoL, h, hf, l, M, hl, hM, ?_, ?_⟩
  · have := (hM'.2 'v' (by decide) _ hc).trans (hF 'v' (by decide) _ hc (by rw [flat_amount]; norm_num))
    rw [show M.get [] = _ from this]
    unfold Pop.mean
    rw [flat_expect_v, normal_mean]
    norm_num
  · have e : ∀ i < demoGrid.bins 'v', A.get (i :: coords [] ⟨0, 0, 0, 0, 0⟩) =
        .fin ((normal 1000 (1 / 10)).real (Set.Ioc (-100 + (i : ℕ) * 100) (-100 + ((i : ℕ) + 1) * 100))) := by
      intro i hi
      have hi4 : i < 4 := hi
      have := hA2 ⟨0, i, 0, 0, 0⟩ ⟨hc.1, hi4, hc.2.2⟩
      rw [show A.get (i :: coords [] ⟨0, 0, 0, 0, 0⟩) = _ from this]
      congr 1
      rw [if_neg (by simp), div_one]
      unfold Ingredients.marginal
      rw [if_pos (by decide), flat_joint_sum (μ := fun _ => 1000) (F := fun _ v => if v = i then 1 else 0)]
      · interval_cases i <;> simp [Fin.sum_univ_four] <;> norm_num
      · intro d _
        have : (coords ['v'] d = coords ['v'] ⟨0, i, 0, 0, 0⟩) ↔ d.v = i := by simp [coords, coord1]
        simp only [this, Ingredients.weight, Bool.false_eq_true, if_false]
        split <;> simp
    refine ⟨_, hv _ hc _ e, ?_⟩
    rw [lmoment_one]
    have hv : ∀ i : ℕ, centre demoGrid.v i = -50 + i * 100 := fun i => by
      norm_num [demoGrid, cubeGrid, evenEdges, centre]; ring
    show ∑ i ∈ Finset.range 4, centre demoGrid.v i * _ ≤ 5
    simp only [Finset.sum_range_succ, hv]
    norm_num
    have a0 := @measureReal_nonneg _ _ (normal 1000 (1 / 10)) (Set.Ioc (-100) 0)
    have a1 := normal_far (μ := 1000) (σ := 1 / 10) (a := 0) (b := 100) (by norm_num)
    have a2 := normal_far (μ := 1000) (σ := 1 / 10) (a := 100) (b := 200) (by norm_num)
    have a3 := normal_far (μ := 1000) (σ := 1 / 10) (a := 200) (b := 300) (by norm_num)
    norm_num at a1 a2 a3
    linarith

end PKM
