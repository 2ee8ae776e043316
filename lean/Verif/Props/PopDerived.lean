import Verif.Props.ParamDerived

/-!
# C69: variances, covariances, correlations and L-moments of mixtures of plain and parametric components

`MixOf m g n ω pop L` and `mixPop` are those of C65: `m` is a mixture, made by the constructor, with the weights `ω i` of
components whose stars are `pop i`; `mixPop n ω pop` are its stars. `mean`, `variance`, `central`, `cov`, `binCov` and
`binShare` are those of CovSpec, as in C68. `Mix.obj m` has the methods that `Component` defines for all components.
-/

open scoped Classical
open MeasureTheory

noncomputable section

namespace PKM
open Np Component

variable {g : Grid} {L : ℕ → ℕ → ℝ} {lw : Bool} {m : Mix} {n : ℕ} {ω : ℕ → ℝ} {pop : ℕ → Pop}

/-- Variance and dispersion of any quantity: the variance of the stars of the mixture and its root, where all members have
stars. Missing: light-weighted ones given the velocity, and those of the velocity given age, pixel and metallicity (see C66). -/
theorem C69_spread_partial (h : MixOf m g n ω pop L) (hl : lw = true → ∀ i < n, (pop i).Shines g L)
    (hm : ∀ (i : ℕ) (hi : i < m.children.length), IsMember1 g L m.children[i] (pop i))
    (k : Char) (hk : k ∈ ['t','v','x','y','z']) (b : PyStr) (hb : ValidPair (varOf k) b) (hv : lw = false ∨ 'v' ∉ b)
    (hvb : ¬ (k = 'v' ∧ b = ['t','x','z'])) :
    ∃ V D, (Mix.obj m).getVariance (distStr (varOf k) b) lw = .ok V ∧ (Mix.obj m).getDispersion (distStr (varOf k) b) lw = .ok D ∧
      V.shape = compShape (varOf k) ++ g.shapeOf b ∧ D.shape = V.shape ∧
      ∀ c, g.Has c → (∀ i < n, (pop i).amount g L lw b c ≠ 0) →
        (b = [] → lw = false → (mixPop n ω pop).amount g L false [] c = 1) →
        V.get (compIdx k ++ coords b c) = .fin ((mixPop n ω pop).variance g L lw b k c) ∧
        0 ≤ (mixPop n ω pop).variance g L lw b k c ∧
        (mixPop n ω pop).variance g L lw b k c = (mixPop n ω pop).expect g L lw b k (fun x => x ^ 2) c - (mixPop n ω pop).mean g L lw b k c ^ 2 ∧
        D.get (compIdx k ++ coords b c) = .fin (Real.sqrt ((mixPop n ω pop).variance g L lw b k c)) := by
  obtain ⟨V, D, h1, h2, h3, h4, h5⟩ := (h.popAt hl hm b hv).spread hk hb (fun e => hvb ⟨varOf_v hk e.1, e.2⟩)
  exact ⟨V, D, h1, h2, h3, h4, fun c hc g1 g2 => h5 c hc ⟨g1, g2⟩⟩

/-- Skewness, kurtosis and excess kurtosis of the stars of the mixture; nan where the stars do not differ. Missing: as above. -/
theorem C69_shape_partial (h : MixOf m g n ω pop L) (hl : lw = true → ∀ i < n, (pop i).Shines g L)
    (hm : ∀ (i : ℕ) (hi : i < m.children.length), IsMember1 g L m.children[i] (pop i))
    (k : Char) (hk : k ∈ ['t','v','x','y','z']) (b : PyStr) (hb : ValidPair (varOf k) b) (hv : lw = false ∨ 'v' ∉ b)
    (hvb : ¬ (k = 'v' ∧ b = ['t','x','z'])) (f2 : ℝ) :
    ∃ S K X, (Mix.obj m).getSkewness (distStr (varOf k) b) lw = .ok S ∧ (Mix.obj m).getKurtosis (distStr (varOf k) b) lw = .ok K ∧
      (Mix.obj m).getExcessKurtosis f2 (distStr (varOf k) b) lw = .ok X ∧
      ∀ c, g.Has c → (∀ i < n, (pop i).amount g L lw b c ≠ 0) →
        (b = [] → lw = false → (mixPop n ω pop).amount g L false [] c = 1) →
        ((mixPop n ω pop).variance g L lw b k c ≠ 0 → ∃ s u : ℝ,
          s = (mixPop n ω pop).central g L lw b k 3 c / Real.sqrt ((mixPop n ω pop).variance g L lw b k c) ^ 3 ∧
          u = (mixPop n ω pop).central g L lw b k 4 c / Real.sqrt ((mixPop n ω pop).variance g L lw b k c) ^ 4 ∧
          S.get (compIdx k ++ coords b c) = .fin s ∧ K.get (compIdx k ++ coords b c) = .fin u ∧
          X.get (compIdx k ++ coords b c) = .fin (u - 3) ∧ 1 + s ^ 2 ≤ u) ∧
        ((mixPop n ω pop).variance g L lw b k c = 0 → S.get (compIdx k ++ coords b c) = .nan ∧
          K.get (compIdx k ++ coords b c) = .nan ∧ X.get (compIdx k ++ coords b c) = .nan) := by
  obtain ⟨S, K, X, h1, h2, h3, h4⟩ := (h.popAt hl hm b hv).shape hk hb (fun e => hvb ⟨varOf_v hk e.1, e.2⟩) f2
  exact ⟨S, K, X, h1, h2, h3, fun c hc g1 g2 => h4 c hc ⟨g1, g2⟩⟩

/-- Covariances of two variables, neither of them the velocity: those of the stars of the mixture. Missing: light-weighted ones
given the velocity; covariances with the velocity (next theorem). -/
theorem C69_covariance_partial (h : MixOf m g n ω pop L) (hl : lw = true → ∀ i < n, (pop i).Shines g L)
    (hm : ∀ (i : ℕ) (hi : i < m.children.length), IsMember1 g L m.children[i] (pop i))
    (a0 a1 : Char) (b : PyStr) (hab : ValidPair [a0, a1] b) (h0 : a0 ≠ 'v') (h1 : a1 ≠ 'v') (hv : lw = false ∨ 'v' ∉ b) :
    ∃ r, (Mix.obj m).getCovariance (distStr [a0, a1] b) lw = .ok r ∧ r.shape = compShape [a0] ++ compShape [a1] ++ g.shapeOf b ∧
      ∀ k k', varOf k = [a0] → varOf k' = [a1] → k ∈ ['t','v','x','y','z'] → k' ∈ ['t','v','x','y','z'] →
        ∀ c, g.Has c → (∀ i < n, (pop i).amount g L lw b c ≠ 0) →
        (b = [] → lw = false → (mixPop n ω pop).amount g L false [] c = 1) →
          r.get (compIdx k ++ compIdx k' ++ coords b c) = .fin ((mixPop n ω pop).cov g L lw b k k' c) := by
  obtain ⟨r, r1, r2, r3⟩ := (h.popAt hl hm b hv).covariance hab
  refine ⟨r, r1, r2, fun k k' e e' hk hk' c hc g1 g2 => ?_⟩
  have m1 : k ∈ PyStr.replaceX [a0] := e ▸ (quantity_facts hk).2.1
  have m2 : k' ∈ PyStr.replaceX [a1] := e' ▸ (quantity_facts hk').2.1
  rw [r3 k m1 k' m2 c hc ⟨g1, g2⟩, Pop.givenCov, if_neg (fun e => h0 ((mem_replaceX m1).1 e)), if_neg (fun e => h1 ((mem_replaceX m2).1 e))]

/-- Covariances with the velocity: those of the centres of the velocity bins, of stars in the velocity range only, about the
means of all stars. -/
theorem C69_covariance_velocity (h : MixOf m g n ω pop L) (hl : lw = true → ∀ i < n, (pop i).Shines g L)
    (hm : ∀ (i : ℕ) (hi : i < m.children.length), IsMember1 g L m.children[i] (pop i))
    (a0 : Char) (b : PyStr) :
    (ValidPair [a0, 'v'] b → ∃ r, (Mix.obj m).getCovariance (distStr [a0, 'v'] b) lw = .ok r ∧
      r.shape = compShape [a0] ++ g.shapeOf b ∧
      ∀ k, varOf k = [a0] → k ∈ ['t','x','y','z'] → ∀ c, g.Has c → (∀ i < n, (pop i).amount g L lw b c ≠ 0) →
        (b = [] → lw = false → (mixPop n ω pop).amount g L false [] c = 1) →
        r.get (compIdx k ++ coords b c) = .fin ((mixPop n ω pop).binCov g L lw b k c)) ∧
    (ValidPair ['v', a0] b → ∃ r, (Mix.obj m).getCovariance (distStr ['v', a0] b) lw = .ok r ∧
      r.shape = compShape [a0] ++ g.shapeOf b ∧
      ∀ k, varOf k = [a0] → k ∈ ['t','x','y','z'] → ∀ c, g.Has c → (∀ i < n, (pop i).amount g L lw b c ≠ 0) →
        (b = [] → lw = false → (mixPop n ω pop).amount g L false [] c = 1) →
        r.get (compIdx k ++ coords b c) = .fin ((mixPop n ω pop).binCov g L lw b k c)) := by
  have hi : compIdx 'v' = [] := by decide
  have hs : compShape ['v'] = [] := by decide
  constructor
  · intro hab
    obtain ⟨r, r1, r2, r3⟩ := (h.popAt hl hm b (Or.inr (union_V hab (by simp)).2)).covariance hab
    refine ⟨r, r1, by simpa [hs] using r2, fun k e hk c hc g1 g2 => ?_⟩
    have hk5 : k ∈ ['t','v','x','y','z'] := by simp only [List.mem_cons, List.not_mem_nil, or_false] at hk ⊢; tauto
    have hkv : k ≠ 'v' := by rintro rfl; exact absurd hk (by decide)
    have := r3 k (e ▸ (quantity_facts hk5).2.1) 'v' (by decide) c hc ⟨g1, g2⟩
    rw [hi, List.append_nil] at this
    rw [this, Pop.givenCov, if_neg hkv, if_pos rfl]
  · intro hab
    obtain ⟨r, r1, r2, r3⟩ := (h.popAt hl hm b (Or.inr (union_V hab (by simp)).2)).covariance hab
    refine ⟨r, r1, by simpa [hs] using r2, fun k e hk c hc g1 g2 => ?_⟩
    have hk5 : k ∈ ['t','v','x','y','z'] := by simp only [List.mem_cons, List.not_mem_nil, or_false] at hk ⊢; tauto
    have := r3 'v' (by decide) k (e ▸ (quantity_facts hk5).2.1) c hc ⟨g1, g2⟩
    rw [hi, List.nil_append] at this
    rw [this, Pop.givenCov, if_pos rfl]

/-- Correlations of two variables, neither of them the velocity: Pearson's correlation of the stars of the mixture, between -1
and 1; nan where one of the variables does not vary. Missing: light-weighted ones given the velocity; correlations with the
velocity. -/
theorem C69_correlation_partial (h : MixOf m g n ω pop L) (hl : lw = true → ∀ i < n, (pop i).Shines g L)
    (hm : ∀ (i : ℕ) (hi : i < m.children.length), IsMember1 g L m.children[i] (pop i))
    (a0 a1 : Char) (b : PyStr) (hab : ValidPair [a0, a1] b) (h0 : a0 ≠ 'v') (h1 : a1 ≠ 'v') (hv : lw = false ∨ 'v' ∉ b) :
    ∃ r, (Mix.obj m).getCorrelation (distStr [a0, a1] b) lw = .ok r ∧ r.shape = compShape [a0] ++ compShape [a1] ++ g.shapeOf b ∧
      ∀ k k', varOf k = [a0] → varOf k' = [a1] → k ∈ ['t','v','x','y','z'] → k' ∈ ['t','v','x','y','z'] →
        ∀ c, g.Has c → (∀ i < n, (pop i).amount g L lw b c ≠ 0) →
        (b = [] → lw = false → (mixPop n ω pop).amount g L false [] c = 1) →
          ((mixPop n ω pop).variance g L lw b k c ≠ 0 ∧ (mixPop n ω pop).variance g L lw b k' c ≠ 0 → ∃ x : ℝ,
            x = (mixPop n ω pop).cov g L lw b k k' c / Real.sqrt ((mixPop n ω pop).variance g L lw b k c * (mixPop n ω pop).variance g L lw b k' c) ∧
            r.get (compIdx k ++ compIdx k' ++ coords b c) = .fin x ∧ -1 ≤ x ∧ x ≤ 1) ∧
          ((mixPop n ω pop).variance g L lw b k c = 0 ∨ (mixPop n ω pop).variance g L lw b k' c = 0 →
            r.get (compIdx k ++ compIdx k' ++ coords b c) = .nan) := by
  have hP := h.popAt hl hm b hv
  obtain ⟨r, r1, r2, r3⟩ := hP.correlation hab (fun e => h0 (by simpa using e.1)) (fun e => h1 (by simpa using e.1))
  refine ⟨r, r1, r2, fun k k' e e' hk hk' c hc g1 g2 => ?_⟩
  have m1 : k ∈ PyStr.replaceX [a0] := e ▸ (quantity_facts hk).2.1
  have m2 : k' ∈ PyStr.replaceX [a1] := e' ▸ (quantity_facts hk').2.1
  have k1 : k ≠ 'v' := fun e => h0 ((mem_replaceX m1).1 e)
  have k2 : k' ≠ 'v' := fun e => h1 ((mem_replaceX m2).1 e)
  exact hP.bounded k1 k2 hc ⟨g1, g2⟩ (by rw [r3 k m1 k' m2 c hc ⟨g1, g2⟩, Pop.givenCov, if_neg k1, if_neg k2])

/-- Correlations with the velocity: the covariance of the bin centres over the dispersions of the stars. -/
theorem C69_correlation_velocity (h : MixOf m g n ω pop L) (hl : lw = true → ∀ i < n, (pop i).Shines g L)
    (hm : ∀ (i : ℕ) (hi : i < m.children.length), IsMember1 g L m.children[i] (pop i))
    (a0 : Char) (b : PyStr) (hab : ValidPair [a0, 'v'] b) :
    ∃ r, (Mix.obj m).getCorrelation (distStr [a0, 'v'] b) lw = .ok r ∧ r.shape = compShape [a0] ++ g.shapeOf b ∧
      ∀ k, varOf k = [a0] → k ∈ ['t','x','y','z'] → ∀ c, g.Has c → (∀ i < n, (pop i).amount g L lw b c ≠ 0) →
        (b = [] → lw = false → (mixPop n ω pop).amount g L false [] c = 1) →
        (mixPop n ω pop).variance g L lw b k c ≠ 0 → (mixPop n ω pop).variance g L lw b 'v' c ≠ 0 →
        r.get (compIdx k ++ coords b c) = .fin ((mixPop n ω pop).binCov g L lw b k c /
          Real.sqrt ((mixPop n ω pop).variance g L lw b k c * (mixPop n ω pop).variance g L lw b 'v' c)) := by
  have hi : compIdx 'v' = [] := by decide
  have hs : compShape ['v'] = [] := by decide
  have hP := h.popAt hl hm b (Or.inr (union_V hab (by simp)).2)
  have hav : a0 ≠ 'v' := by
    have := varPairs_mem hab
    simp only [varPairs, List.mem_cons, Prod.mk.injEq, List.not_mem_nil, or_false] at this
    rintro rfl
    revert this; decide
  have hbt : b ≠ ['t','x','z'] := by
    rintro rfl
    have := varPairs_mem hab
    simp only [varPairs, List.mem_cons, Prod.mk.injEq, List.not_mem_nil, or_false] at this
    rcases this with ⟨rfl, e⟩ | ⟨rfl, e⟩ | ⟨rfl, e⟩ | ⟨rfl, e⟩ | ⟨rfl, e⟩ | ⟨rfl, e⟩ <;> revert hab <;> first | decide | exact absurd e (by decide)
  obtain ⟨r, r1, r2, r3⟩ := hP.correlation hab (fun e => hbt e.2) (fun e => hbt e.2)
  refine ⟨r, r1, by simpa [hs] using r2, fun k e hk c hc g1 g2 hV hV' => ?_⟩
  have hk5 : k ∈ ['t','v','x','y','z'] := by simp only [List.mem_cons, List.not_mem_nil, or_false] at hk ⊢; tauto
  have hkv : k ≠ 'v' := by rintro rfl; exact absurd hk (by decide)
  have := r3 k (e ▸ (quantity_facts hk5).2.1) 'v' (by decide) c hc ⟨g1, g2⟩
  rw [hi, List.append_nil] at this
  have hn := hP.variance_nonneg (fun e => absurd e hkv) hc ⟨g1, g2⟩
  have hn' := hP.variance_nonneg (k := 'v') (fun _ => (union_V hab (by simp)).2) hc ⟨g1, g2⟩
  have : (0 : ℝ) < (mixPop n ω pop).variance g L lw b k c * (mixPop n ω pop).variance g L lw b 'v' c :=
    mul_pos (lt_of_le_of_ne hn hV.symm) (lt_of_le_of_ne hn' hV'.symm)
  rw [‹r.get _ = _›, Pop.givenCov, if_neg hkv, if_pos rfl, Num.fin_div _ _ (Real.sqrt_pos.2 this).ne']

/-- L-moments (any order) of age and metallicity: Hosking's L-moments of the fractions of the stars in the bins, so the L-mean
is the mean and the L-dispersion is not negative. Missing: L-moments of the velocity. -/
theorem C69_l_moments_partial (h : MixOf m g n ω pop L) (hl : lw = true → ∀ i < n, (pop i).Shines g L)
    (k : Char) (hk : k ∈ ['t','z']) (b : PyStr) (hb : ValidPair [k] b) (j : ℕ) (hj : 1 ≤ j) :
    ∃ r, (Mix.obj m).getLMoment (distStr [k] b) j lw = .ok r ∧ r.shape = g.shapeOf b ∧
      ∀ c, g.Has c → (∀ i < n, (pop i).amount g L lw b c ≠ 0) →
        (b = [] → lw = false → (mixPop n ω pop).amount g L false [] c = 1) →
      r.get (coords b c) = .fin (lmoment (g.bins k) (g.edge k) ((mixPop n ω pop).binShare g L lw b k c) j) ∧
      cdf ((mixPop n ω pop).binShare g L lw b k c) (g.bins k) = 1 ∧ (∀ i, 0 ≤ (mixPop n ω pop).binShare g L lw b k c i) ∧
      lmoment (g.bins k) (g.edge k) ((mixPop n ω pop).binShare g L lw b k c) 1 = (mixPop n ω pop).mean g L lw b k c ∧
      0 ≤ lmoment (g.bins k) (g.edge k) ((mixPop n ω pop).binShare g L lw b k c) 2 := by
  obtain ⟨r, h1, h2, h3⟩ := (h.shareTab hl hk hb).lmoments h.proper h.cubeIs h.mixOk h.lightNonneg
    (fun c _ hg => (h.mixAmount_pos hg.1).ne') hk hb j hj
  exact ⟨r, h1, h2, fun c hc g1 g2 => h3 c hc ⟨g1, g2⟩⟩

/-- All L-moments, including those of the velocity, are those of the distribution that `get_p` returns. -/
theorem C69_l_moments_of_distribution (h : MixOf m g n ω pop L) (hl : lw = true → ∀ i < n, (pop i).Shines g L)
    (k : Char) (hk : k ∈ ['t','v','z']) (b : PyStr) (hb : ValidPair [k] b) (j : ℕ) (hj : 1 ≤ j) :
    ∃ A r, Mix.getP m (distStr [k] b) true false lw = .ok A ∧ (Mix.obj m).getLMoment (distStr [k] b) j lw = .ok r ∧
      r.shape = g.shapeOf b ∧ ∀ c, g.Has c → ∀ π : ℕ → ℝ, (∀ i < g.bins k, A.get (i :: coords b c) = .fin (π i)) →
        r.get (coords b c) = .fin (lmoment (g.bins k) (g.edge k) π j) :=
  h.lmoments_of hl hk hb j hj

/-! ### The hypotheses are met -/

/-- The mixture of C66 of a disk with two stars meets all hypotheses, by mass and by light. -/
example : ∃ m p t0, MixOf m demoGrid 2 (fun i => if i = 0 then 1 / 4 else 3 / 4) p demoL ∧
    (true = true → ∀ i < 2, (p i).Shines demoGrid demoL) ∧
    (∀ (i : ℕ) (hi : i < m.children.length), IsMember1 demoGrid demoL m.children[i] (p i)) ∧
    ValidPair (varOf 'v') ['t','x'] ∧ ValidPair ['t','z'] ['x'] ∧ ValidPair ['t','v'] ['x'] ∧ ValidPair ['z'] ['v'] ∧
    demoGrid.Has ⟨t0, 0, 0, 0, 0⟩ ∧ ∀ i < 2, (p i).amount demoGrid demoL true ['t','x'] ⟨t0, 0, 0, 0, 0⟩ ≠ 0 := by
  obtain ⟨cube, p, mi, t0, hP, hf, ht, hpos, hmk⟩ := demoStarMix
  have hc : demoGrid.Has ⟨t0, 0, 0, 0, 0⟩ := by
    refine ⟨ht, ?_, ?_, ?_, ?_⟩ <;> norm_num [demoGrid, cubeGrid]
  obtain ⟨m, -, -, hB, h, hl, hm⟩ := hmk _ _ hc hc
  refine ⟨m, _, t0, h, fun _ => hl, hm, by decide, by decide, by decide, by decide, hc, fun i hi => ?_⟩
  interval_cases i
  · simp only [if_true]
    rw [Pop.amount_eq hP.proper hP.pop_ok]
    refine (sumCells_pos_of (c := ⟨t0, 0, 0, 0, 0⟩) (fun d hd => ?_) hc ?_).ne'
    · beta_reduce
      split
      · exact mul_nonneg (wt_nonneg (fun t z => (demoL_pos t z).le) d) (hP.pop_ok.cells_nonneg _ hd)
      · exact le_rfl
    rw [if_pos rfl]
    refine mul_pos (by simp only [Pop.wt, if_true]; exact demoL_pos _ _) ?_
    rw [ingr_cells]
    show 0 < mi.probTXZ demoGrid _ / _
    have := hpos ⟨t0, 0, 0, 0, 0⟩ hc rfl
    have hv : (0 : ℝ) < demoGrid.nv := by norm_num [demoGrid, cubeGrid]
    positivity
  · simp only [one_ne_zero, if_false]
    rw [twoStars_amount hc hc, if_pos rfl]
    have := demoL_pos t0 0
    simp only [Pop.wt, if_true]
    positivity

/-! ### Where it fails -/

/-- Two equal halves. -/
theorem mixPop_halves (q : Pop) : mixPop 2 (fun _ => 1 / 2) (fun _ => q) = q := by
  cases q with
  | mk joint vel =>
    unfold mixPop
    simp only [Fin.sum_univ_two, Pop.mk.injEq]
    constructor
    · funext c; ring
    · funext φ c; ring

/-- A mixture of two equal halves. -/
theorem flatMix_exists (μ : ℕ → ℝ) : ∃ m p, Mix.init p.cube [Component.child p.self none, Component.child p.self none] [1 / 2, 1 / 2] = .ok m ∧
    ParamIs p demoGrid (flatIngr μ) demoL ∧ p.f2 = 1 ∧
    MixOf m demoGrid 2 (fun _ => 1 / 2) (fun _ => (flatIngr μ).pop demoGrid) demoL ∧
    ∀ (i : ℕ) (hi : i < m.children.length), IsMember1 demoGrid demoL m.children[i] ((flatIngr μ).pop demoGrid) := by
  obtain ⟨p, h, hf⟩ := flatDisk_exists μ
  refine ⟨_, p, (C28_constructor p.cube _ _).2 (by norm_num), h, hf, ?_, fun i hi => ?_⟩
  · refine ⟨by norm_num, h.cubeIs, h.light, rfl, by simp [List.range_succ], fun i hi => by norm_num, fun i hi => ?_⟩
    have : i < 2 := hi
    interval_cases i <;> exact .parametric p _ none h rfl rfl
  · have : i < 2 := hi
    interval_cases i <;> exact .parametric p _ none h hf rfl rfl

/-- Correlations of mixtures with the velocity are not between -1 and 1. -/
theorem C69_correlation_wrong : ∃ cube children weights m r, Mix.init cube children weights = .ok m ∧
    (∀ ch ∈ children, ∃ q, IsMember demoGrid demoL ch q) ∧
    (Mix.obj m).getCorrelation ['t','v'] false = .ok r ∧ ∃ x : ℝ, r.get [] = .fin x ∧ 40 < x := by
  obtain ⟨m, p, hi, h, hf, hM, hm⟩ := flatMix_exists (fun t => if t = 0 then 99 else 101)
  have hc : demoGrid.Has ⟨0, 0, 0, 0, 0⟩ := by
    refine ⟨?_, ?_, ?_, ?_, ?_⟩ <;> norm_num [demoGrid, cubeGrid]
  obtain ⟨r, r1, -, r3⟩ := C69_correlation_velocity (lw := false) hM (by simp) hm 't' [] (by decide)
  obtain ⟨h1, h2, h3⟩ := flat_numbers
  rw [mixPop_halves] at r3
  have := r3 't' rfl (by decide) _ hc (fun i _ => by rw [flat_amount]; norm_num) (fun _ _ => flat_amount _) (by rw [h1]; norm_num)
    (by rw [h2]; norm_num)
  refine ⟨_, _, _, m, r, hi, fun ch hch => ?_, r1, _, this, ?_⟩
  · exact ⟨(flatIngr (fun t => if t = 0 then 99 else 101)).pop demoGrid, .parametric p _ none h (by simpa using hch) rfl⟩
  · rw [h1, h2]
    have hs : Real.sqrt (1 * (101 / 100)) ≤ 11 / 10 := Real.sqrt_le_iff.2 (by norm_num)
    have hs0 : 0 < Real.sqrt (1 * (101 / 100)) := Real.sqrt_pos.2 (by norm_num)
    rw [lt_div_iff₀ hs0]
    linarith

end PKM
