import Verif.PopMoments
import Verif.CovSpec
import Verif.AlgMoment
import Verif.LMoment
import Mathlib.Algebra.Polynomial.Eval.Algebra
import Mathlib.Algebra.Polynomial.AlgebraMap

/-! Lemmas: variances, normalised moments, covariances and correlations of objects which answer with the means, moments and
tables of a population. -/

open scoped Classical
open MeasureTheory

noncomputable section

namespace PKM
open Np Component

variable {g : Grid} {L : ℕ → ℕ → ℝ} {lw : Bool} {a b : PyStr} {q : Pop}

/-! ### Moments of populations as functionals on polynomials -/

theorem sumTXZ_has (hg : g.Proper) {f f' : Cell → ℝ} (h : ∀ c, g.Has c → f c = f' c) :
    Ingredients.sumTXZ g f = Ingredients.sumTXZ g f' := by
  unfold Ingredients.sumTXZ
  exact Finset.sum_congr rfl fun t _ => Finset.sum_congr rfl fun x _ => Finset.sum_congr rfl fun y _ =>
    Finset.sum_congr rfl fun z _ => h _ ⟨t.2, hg.nv, x.2, y.2, z.2⟩

theorem sumTXZ_add (f f' : Cell → ℝ) :
    Ingredients.sumTXZ g (fun c => f c + f' c) = Ingredients.sumTXZ g f + Ingredients.sumTXZ g f' := by
  simp only [Ingredients.sumTXZ, Finset.sum_add_distrib]

theorem sumTXZ_nonneg (hg : g.Proper) {f : Cell → ℝ} (h : ∀ c, g.Has c → 0 ≤ f c) : 0 ≤ Ingredients.sumTXZ g f := by
  unfold Ingredients.sumTXZ
  exact Finset.sum_nonneg fun t _ => Finset.sum_nonneg fun x _ => Finset.sum_nonneg fun y _ =>
    Finset.sum_nonneg fun z _ => h _ ⟨t.2, hg.nv, x.2, y.2, z.2⟩

/-- Moments of the velocities are those of some distribution: linear, and non-negative on squares. -/
def Pop.Poly (q : Pop) (g : Grid) : Prop :=
  ∃ E : Cell → Polynomial ℝ →ₗ[ℝ] ℝ, (∀ c p, g.Has c → q.vel (fun x => p.eval x) c = E c p) ∧
    ∀ c, g.Has c → ∀ p, 0 ≤ E c (p ^ 2)

theorem tablePop_poly (hg : g.Proper) {ρ : Cell → ℝ} (hρ : ∀ c, 0 ≤ ρ c) : (tablePop g ρ).Poly g := by
  refine ⟨fun c => ∑ v : Fin g.nv, (ρ { c with v := v } * g.cellVolume { c with v := v }) • Polynomial.leval (centre g.v v),
    fun c p hc => ?_, fun c hc p => ?_⟩
  · simp only [LinearMap.sum_apply, LinearMap.smul_apply, Polynomial.leval_apply, smul_eq_mul, tablePop]
    exact Finset.sum_congr rfl fun v _ => mul_comm _ _
  · simp only [LinearMap.sum_apply, LinearMap.smul_apply, Polynomial.leval_apply, smul_eq_mul, Polynomial.eval_pow]
    refine Finset.sum_nonneg fun v _ => mul_nonneg (mul_nonneg (hρ _) (cellVolume_pos hg ?_).le) (sq_nonneg _)
    exact ⟨hc.1, v.2, hc.2.2.1, hc.2.2.2.1, hc.2.2.2.2⟩

theorem integrable_poly (μ σ : ℝ) (p : Polynomial ℝ) : Integrable (fun x => p.eval x) (normal μ σ) := by
  rw [← normal_map, integrable_map_measure (by fun_prop) (by fun_prop)]
  have : ((fun x => p.eval x) ∘ fun u => σ * u + μ) = fun u => (p.comp (Polynomial.C σ * Polynomial.X + Polynomial.C μ)).eval u := by
    funext u; simp
  rw [this]
  generalize p.comp (Polynomial.C σ * Polynomial.X + Polynomial.C μ) = r
  simp only [Polynomial.eval_eq_sum_range]
  exact integrable_finset_sum _ fun k _ => (integrable_pow_std k).const_mul _

theorem ingr_poly (m : Ingredients) (hok : (m.pop g).Ok g) : (m.pop g).Poly g := by
  refine ⟨fun c => m.probTXZ g c • (IsLinearMap.mk' (fun p : Polynomial ℝ =>
    ∫ v, p.eval v ∂(normal (m.mu c.t c.x c.y) (m.sig c.t c.x c.y))) ⟨fun p r => ?_, fun k p => ?_⟩), fun c p hc => rfl, fun c hc p => ?_⟩
  · simp only [Polynomial.eval_add]
    exact integral_add (integrable_poly _ _ p) (integrable_poly _ _ r)
  · simp only [Polynomial.eval_smul, smul_eq_mul]
    exact integral_const_mul _ _
  · have h1 := hok.stars c hc
    rw [ingr_stars] at h1
    simp only [LinearMap.smul_apply, IsLinearMap.mk'_apply, smul_eq_mul, Polynomial.eval_pow]
    exact mul_nonneg h1 (integral_nonneg fun v => sq_nonneg _)

theorem mixPop_poly {n : ℕ} {ω : ℕ → ℝ} {pop : ℕ → Pop} (hω : ∀ i < n, 0 < ω i) (h : ∀ i < n, (pop i).Poly g) :
    (mixPop n ω pop).Poly g := by
  choose E hE1 hE2 using fun i : Fin n => h i i.2
  refine ⟨fun c => ∑ i : Fin n, ω i • E i c, fun c p hc => ?_, fun c hc p => ?_⟩
  · simp only [LinearMap.sum_apply, LinearMap.smul_apply, smul_eq_mul, mixPop]
    exact Finset.sum_congr rfl fun i _ => by rw [hE1 i c p hc]
  · simp only [LinearMap.sum_apply, LinearMap.smul_apply, smul_eq_mul]
    exact Finset.sum_nonneg fun i _ => mul_nonneg (hω i i.2).le (hE2 i c hc p)

theorem wt_nonneg (hL : ∀ t z, 0 ≤ L t z) (d : Cell) : 0 ≤ Pop.wt L lw d := by
  unfold Pop.wt; split
  · exact hL _ _
  · exact zero_le_one

theorem Pop.Ok.cells_nonneg (h : q.Ok g) (w : PyStr) {d : Cell} (hd : g.Has d) : 0 ≤ q.cells g w d := by
  unfold Pop.cells pick
  split
  · exact h.joint d hd
  · exact MixOf.flat_nonneg h hd

theorem Pop.Ok.amount_nonneg (h : q.Ok g) (hg : g.Proper) (hL : ∀ t z, 0 ≤ L t z) (w : PyStr) (c : Cell) :
    0 ≤ q.amount g L lw w c := by
  rw [Pop.amount_eq hg h]
  exact marg_nonneg (fun d hd => mul_nonneg (wt_nonneg hL d) (h.cells_nonneg w hd)) w c

/-- Expectations of polynomials of a quantity. -/
theorem Pop.Poly.functional (hP : q.Poly g) (hg : g.Proper) (hok : q.Ok g) (hL : ∀ t z, 0 ≤ L t z) {k : Char}
    (hkb : k = 'v' → 'v' ∉ b) {c : Cell} (h0 : q.amount g L lw b c ≠ 0) :
    ∃ E : Polynomial ℝ →ₗ[ℝ] ℝ, PosAlg E ∧ ∀ p, E p = q.expect g L lw b k (fun x => p.eval x) c := by
  obtain ⟨E, hE1, hE2⟩ := hP
  have hA : 0 < q.amount g L lw b c := lt_of_le_of_ne (hok.amount_nonneg hg hL b c) h0.symm
  by_cases hk : k = 'v'
  · subst hk
    have hn : ∀ p : Polynomial ℝ, q.num g L lw b 'v' (fun x => p.eval x) c =
        Ingredients.sumTXZ g (fun d => if coords b d = coords b c then Pop.wt L lw d * E d p else 0) := fun p => by
      unfold Pop.num
      rw [if_pos rfl]
      exact sumTXZ_has hg fun d hd => by rw [hE1 d p hd]
    refine ⟨IsLinearMap.mk' (fun p => q.expect g L lw b 'v' (fun x => p.eval x) c) ⟨fun p r => ?_, fun s p => ?_⟩, ⟨fun p => ?_, ?_⟩,
      fun p => rfl⟩
    · simp only [Pop.expect_num, hn]
      rw [← add_div, ← sumTXZ_add]
      congr 1
      exact sumTXZ_congr fun d => by split <;> simp [mul_add]
    · simp only [Pop.expect_num, hn, smul_eq_mul]
      rw [← mul_div_assoc, ← sumTXZ_mul]
      congr 1
      exact sumTXZ_congr fun d => by split <;> simp; ring
    · simp only [IsLinearMap.mk'_apply, Pop.expect_num, hn]
      refine div_nonneg (sumTXZ_nonneg hg fun d hd => ?_) hA.le
      split
      · exact mul_nonneg (wt_nonneg hL d) (hE2 d hd p)
      · exact le_rfl
    · simp only [IsLinearMap.mk'_apply, Pop.expect_num, Polynomial.eval_one]
      rw [div_eq_one_iff_eq h0]
      unfold Pop.num Pop.amount
      rw [if_pos rfl, if_neg (hkb rfl)]
      rfl
  · have hn := fun φ => Pop.num_eq (L := L) (lw := lw) hg hok hk b φ c
    refine ⟨IsLinearMap.mk' (fun p => q.expect g L lw b k (fun x => p.eval x) c) ⟨fun p r => ?_, fun s p => ?_⟩, ⟨fun p => ?_, ?_⟩,
      fun p => rfl⟩
    · simp only [Pop.expect_num, hn, Polynomial.eval_add, add_mul, marg_add, add_div]
    · simp only [Pop.expect_num, hn, Polynomial.eval_smul, smul_eq_mul, mul_assoc, marg_smul, mul_div_assoc]
    · simp only [IsLinearMap.mk'_apply, Pop.expect_num, hn, Polynomial.eval_pow]
      exact div_nonneg (marg_nonneg (fun d hd => mul_nonneg (sq_nonneg _)
        (mul_nonneg (wt_nonneg hL d) (hok.cells_nonneg b hd))) b c) hA.le
    · simp only [IsLinearMap.mk'_apply, Pop.expect_num, hn, Polynomial.eval_one, one_mul]
      rw [← Pop.amount_eq hg hok, div_self h0]

theorem central_poly {E : Polynomial ℝ →ₗ[ℝ] ℝ} {k : Char} {c : Cell}
    (hE : ∀ p, E p = q.expect g L lw b k (fun x => p.eval x) c) (j : ℕ) :
    q.central g L lw b k j c = E ((Polynomial.X - algebraMap ℝ _ (E Polynomial.X)) ^ j) ∧ q.mean g L lw b k c = E Polynomial.X ∧
    q.expect g L lw b k (fun x => x ^ j) c = E (Polynomial.X ^ j) := by
  have h1 : q.mean g L lw b k c = E Polynomial.X := by
    rw [hE]; simp only [Polynomial.eval_X]; rfl
  refine ⟨?_, h1, ?_⟩
  · rw [hE, ← h1]
    unfold Pop.central
    simp
  · rw [hE]; simp

/-! ### Tables -/

theorem Pop.Ok.light_b (h : q.Ok g) (hg : g.Proper) (hL : ∀ t z, 0 ≤ L t z)
    (hlight : lw = true → 0 < q.lightOf g L ['t','x','z']) (w : PyStr) :
    (if lw then q.lightOf g L w else 1) ≠ 0 := by
  split
  · next e => exact (h.light_pos hg hL (hlight e) w).ne'
  · exact one_ne_zero

theorem wtd_marg (hg : g.Proper) (hok : q.Ok g) (w : PyStr) (φ : Cell → ℝ) (c : Cell) (b : PyStr) :
    g.marg (fun d => φ d * wtdP g L (q.cells g w) lw d) b c =
      g.marg (fun d => φ d * (Pop.wt L lw d * q.cells g w d)) b c / (if lw then q.lightOf g L w else 1) := by
  rw [← marg_div_const, Pop.lightOf_eq hg hok]
  congr 1; funext d
  rw [wtd_wt, mul_div_assoc, mul_div_assoc, mul_div_assoc]

/-- The conditioning weight is the marginal distribution. -/
theorem condWt_marginal (hg : g.Proper) (hok : q.Ok g) (hL : ∀ t z, 0 ≤ L t z)
    (hlight : lw = true → 0 < q.lightOf g L ['t','x','z']) {c : Cell}
    (h1 : b = [] → lw = false → q.amount g L false [] c = 1) :
    g.condWt (wtdP g L (q.cells g b) lw) b c = q.marginal g L lw b c := by
  unfold Grid.condWt
  split
  · next e =>
    subst e
    unfold Pop.marginal
    cases lw with
    | false => simp [h1 rfl rfl]
    | true =>
      rw [amount_nil_light hg hok, if_pos rfl, div_self]
      exact (hok.light_pos hg hL (hlight rfl) []).ne'
  · rw [Pop.marginal_eq hg hok]

theorem expectOf_eq (hg : g.Proper) (hok : q.Ok g) {f : Cell → ℝ} (hf : ∀ d v, f { d with v := v } = f d) (c : Cell) :
    q.expectOf g L lw b f c = g.marg (fun d => f d * (Pop.wt L lw d * q.cells g b d)) b c / q.amount g L lw b c := by
  unfold Pop.expectOf Pop.cells pick
  congr 1
  split
  · unfold Grid.marg
    congr 1; funext d
    split <;> ring
  · next hv =>
    rw [← sumCells_noV hg]
    · unfold Grid.marg
      congr 1; funext d
      split
      · unfold Pop.flat; ring
      · simp
    · intro d v
      rw [coords_noV hv, wt_noV, hf]
      unfold Pop.stars
      rw [hok.noV]

theorem respects_popMean (k : Char) : Respects b (q.mean g L lw b k) := by
  intro d d' e
  simp only [Pop.mean, Pop.expect, Pop.amount, e]

/-! ### Objects that answer like a population -/

/-- The object answers with means, central moments (of the variables in `ask`) and tables of the population, at the values of
the conditioners `b` where `good` holds. -/
structure PopAt (o : Obj) (q : Pop) (g : Grid) (L : ℕ → ℕ → ℝ) (lw : Bool) (b : PyStr) (ask : PyStr → Prop) (good : Cell → Prop) :
    Prop where
  proper : g.Proper
  cube : CubeIs o.cube g
  ok : q.Ok g
  poly : q.Poly g
  lightNonneg : ∀ t z, 0 ≤ L t z
  light : lw = true → 0 < q.lightOf g L ['t','x','z']
  stars : ∀ c, g.Has c → good c → q.amount g L lw b c ≠ 0 ∧ (b = [] → lw = false → q.amount g L false [] c = 1)
  mean : ∀ a, ValidPair a b → a.length = 1 → ∃ M F, o.getMean (distStr a b) lw = .ok M ∧ IsMom g a b M F ∧
    ∀ k ∈ PyStr.replaceX a, ∀ c, g.Has c → good c → F k c = .fin (q.mean g L lw b k c)
  central : ∀ a, ValidPair a b → a.length = 1 → ask a → ∀ j, ∃ r F, o.getCentralMoment (distStr a b) j lw = .ok r ∧
    IsMom g a b r F ∧ ∀ k ∈ PyStr.replaceX a, ∀ c, g.Has c → good c → F k c = .fin (q.central g L lw b k j c)
  pair : ∀ a, ValidPair a b → a.length = 2 → HasTab o.getP g lw (wtdP g L (q.cells g (unionStr a b)) lw)
    (g.condWt (wtdP g L (q.cells g b) lw) b) a b

/-- The covariance that is returned. -/
def Pop.givenCov (q : Pop) (g : Grid) (L : ℕ → ℕ → ℝ) (lw : Bool) (b : PyStr) (k k' : Char) (c : Cell) : ℝ :=
  if k = 'v' then q.binCov g L lw b k' c else if k' = 'v' then q.binCov g L lw b k c else q.cov g L lw b k k' c

theorem pair_noV : ∀ p ∈ conditionals, p.1.length = 2 → 'v' ∉ p.1 → ('v' ∈ unionStr p.1 p.2 ↔ 'v' ∈ p.2) := by decide +kernel
theorem pair_noV' : ∀ a ∈ marginals, a.length = 2 → 'v' ∉ a → 'v' ∉ unionStr a [] := by decide +kernel
theorem pair_V : ∀ p ∈ conditionals, 'v' ∈ p.1 → 'v' ∈ unionStr p.1 p.2 ∧ 'v' ∉ p.2 := by decide +kernel
theorem pair_V' : ∀ a ∈ marginals, 'v' ∈ a → 'v' ∈ unionStr a [] := by decide +kernel

theorem union_V (hab : ValidPair a b) (hv : 'v' ∈ a) : 'v' ∈ unionStr a b ∧ 'v' ∉ b := by
  rcases hab with ⟨rfl, h⟩ | h
  · exact ⟨pair_V' a h hv, by simp⟩
  · exact pair_V _ h hv

theorem union_noV (hab : ValidPair a b) (h2 : a.length = 2) (hv : 'v' ∉ a) : ('v' ∈ unionStr a b ↔ 'v' ∈ b) := by
  rcases hab with ⟨rfl, h⟩ | h
  · simpa using pair_noV' a h h2 hv
  · exact pair_noV _ h h2 hv

theorem value_v (d : Cell) : g.value 'v' d = centre g.v d.v := by simp [Grid.value]

theorem mem_replaceX {a k : Char} (h : k ∈ PyStr.replaceX [a]) : (k = 'v' ↔ a = 'v') := by
  unfold PyStr.replaceX at h
  by_cases e : a = 'x'
  · subst e
    have h : k ∈ (['x','y'] : List Char) := by simpa [PyStr.replaceX] using h
    constructor
    · rintro rfl; exact absurd h (by decide)
    · intro e; exact absurd e (by decide)
  · have : k = a := by simpa [PyStr.replaceX, e] using h
    rw [this]

namespace PopAt
variable {o : Obj} {ask : PyStr → Prop} {good : Cell → Prop}

theorem cov_value (h : PopAt o q g L lw b ask good) {a0 a1 : Char} (hab : ValidPair [a0, a1] b)
    {k k' : Char} (hk : k ∈ PyStr.replaceX [a0]) (hk' : k' ∈ PyStr.replaceX [a1]) {c : Cell} (hc : g.Has c) (hgood : good c) :
    expectM g (wtdP g L (q.cells g (unionStr [a0, a1] b)) lw) (g.condWt (wtdP g L (q.cells g b) lw) b)
      (fun d => (g.value k d - q.mean g L lw b k d) * (g.value k' d - q.mean g L lw b k' d)) b c =
      .fin (q.givenCov g L lw b k k' c) := by
  obtain ⟨hA, h1⟩ := h.stars c hc hgood
  have hT := h.ok.light_b (lw := lw) h.proper h.lightNonneg h.light
  have hM : q.marginal g L lw b c ≠ 0 := div_ne_zero hA (hT b)
  have hne : a0 ≠ a1 := by
    have := varPairs_mem hab
    simp only [varPairs, List.mem_cons, Prod.mk.injEq, List.not_mem_nil, or_false] at this
    rintro rfl
    rcases this with ⟨rfl, e⟩ | ⟨rfl, e⟩ | ⟨rfl, e⟩ | ⟨rfl, e⟩ | ⟨rfl, e⟩ | ⟨rfl, e⟩ <;> exact absurd e (by decide)
  unfold expectM
  rw [condWt_marginal h.proper h.ok h.lightNonneg h.light h1, if_neg hM]
  congr 1
  have hloc : g.marg (fun d => (g.value k d - q.mean g L lw b k d) * (g.value k' d - q.mean g L lw b k' d) *
      wtdP g L (q.cells g (unionStr [a0, a1] b)) lw d) b c =
      g.marg (fun d => (g.value k d - q.mean g L lw b k c) * (g.value k' d - q.mean g L lw b k' c) *
      wtdP g L (q.cells g (unionStr [a0, a1] b)) lw d) b c :=
    marg_congr fun d _ e => by rw [respects_popMean k d c e, respects_popMean k' d c e]
  rw [hloc, wtd_marg h.proper h.ok]
  by_cases hv : 'v' ∈ [a0, a1]
  · obtain ⟨u1, u2⟩ := union_V hab hv
    have hcells : q.cells g (unionStr [a0, a1] b) = q.joint := by simp [Pop.cells, pick, u1]
    have hl : (if lw then q.lightOf g L (unionStr [a0, a1] b) else 1) = (if lw then q.lightOf g L ['v'] else 1) := by
      simp [Pop.lightOf, u1]
    rw [hcells, hl]
    simp only [List.mem_cons, List.not_mem_nil, or_false] at hv
    unfold Pop.givenCov
    rcases hv with rfl | rfl
    · obtain rfl : k = 'v' := (mem_replaceX hk).2 rfl
      rw [if_pos rfl]
      unfold Pop.binCov
      refine congrArg₂ (· / ·) (congrArg₂ (· / ·) ?_ rfl) rfl
      unfold Grid.marg
      refine congrArg g.sumCells (funext fun d => ?_)
      split
      · beta_reduce; rw [value_v]; ring
      · rfl
    · obtain rfl : k' = 'v' := (mem_replaceX hk').2 rfl
      have : k ≠ 'v' := fun e => hne ((mem_replaceX hk).1 e)
      rw [if_neg this, if_pos rfl]
      unfold Pop.binCov
      refine congrArg₂ (· / ·) (congrArg₂ (· / ·) ?_ rfl) rfl
      unfold Grid.marg
      refine congrArg g.sumCells (funext fun d => ?_)
      split
      · beta_reduce; rw [value_v]; ring
      · rfl
  · have hu := union_noV hab rfl hv
    have hcells : q.cells g (unionStr [a0, a1] b) = q.cells g b := by simp [Pop.cells, pick, hu]
    have hl : (if lw then q.lightOf g L (unionStr [a0, a1] b) else 1) = (if lw then q.lightOf g L b else 1) := by
      simp [Pop.lightOf, hu]
    simp only [List.mem_cons, List.not_mem_nil, or_false, not_or] at hv
    have k1 : k ≠ 'v' := fun e => hv.1 ((mem_replaceX hk).1 e).symm
    have k2 : k' ≠ 'v' := fun e => hv.2 ((mem_replaceX hk').1 e).symm
    unfold Pop.givenCov
    rw [if_neg k1, if_neg k2, hcells, hl]
    unfold Pop.cov Pop.marginal
    rw [expectOf_eq h.proper h.ok (fun d v => by rw [value_noV k1, value_noV k2]), div_div_div_cancel_right₀ (hT b)]

theorem covariance (h : PopAt o q g L lw b ask good) {a0 a1 : Char} (hab : ValidPair [a0, a1] b) :
    ∃ r, o.getCovariance (distStr [a0, a1] b) lw = .ok r ∧ r.shape = compShape [a0] ++ compShape [a1] ++ g.shapeOf b ∧
      ∀ k ∈ PyStr.replaceX [a0], ∀ k' ∈ PyStr.replaceX [a1], ∀ c, g.Has c → good c →
        r.get (compIdx k ++ compIdx k' ++ coords b c) = .fin (q.givenCov g L lw b k k' c) := by
  obtain ⟨h0, h1⟩ := validPair_sub hab
  obtain ⟨M0, F0, e0, i0, v0⟩ := h.mean _ h0 rfl
  obtain ⟨M1, F1, e1, i1, v1⟩ := h.mean _ h1 rfl
  obtain ⟨r, r1, r2, r3⟩ := covCore_pointwise h.proper h.cube hab (h.pair _ hab rfl) (respects_condWt _ b) e0 e1 i0 i1
    (μ := fun k => q.mean g L lw b k) (fun k => respects_popMean k)
  refine ⟨r, by rw [getCovariance_eq hab]; exact r1, r2, fun k hk k' hk' c hc hgood => ?_⟩
  rw [r3 k hk k' hk' c hc (fun _ => v0 k hk c hc hgood) (fun _ => v1 k' hk' c hc hgood)]
  exact h.cov_value hab hk hk' hc hgood

theorem functional (h : PopAt o q g L lw b ask good) {k : Char} (hkb : k = 'v' → 'v' ∉ b) {c : Cell} (hc : g.Has c) (hgood : good c) :
    ∃ E : Polynomial ℝ →ₗ[ℝ] ℝ, PosAlg E ∧ ∀ p, E p = q.expect g L lw b k (fun x => p.eval x) c :=
  h.poly.functional h.proper h.ok h.lightNonneg hkb (h.stars c hc hgood).1

theorem variance_nonneg (h : PopAt o q g L lw b ask good) {k : Char} (hkb : k = 'v' → 'v' ∉ b) {c : Cell} (hc : g.Has c) (hgood : good c) :
    0 ≤ q.variance g L lw b k c := by
  obtain ⟨E, hE, hp⟩ := h.functional hkb hc hgood
  unfold Pop.variance
  rw [(central_poly hp 2).1]
  exact hE.sq _

/-- Correlations of age, position and metallicity. -/
theorem cauchy (h : PopAt o q g L lw b ask good) {k k' : Char} (hk : k ≠ 'v') (hk' : k' ≠ 'v') {c : Cell} (hc : g.Has c) (hgood : good c) :
    q.cov g L lw b k k' c ^ 2 ≤ q.variance g L lw b k c * q.variance g L lw b k' c := by
  have h0 := (h.stars c hc hgood).1
  have hA : 0 < q.amount g L lw b c := lt_of_le_of_ne (h.ok.amount_nonneg h.proper h.lightNonneg b c) h0.symm
  have hE : Pos (fun f : Cell → ℝ => g.marg (fun d => f d * (Pop.wt L lw d * q.cells g b d)) b c / q.amount g L lw b c) := by
    refine ⟨fun φ ψ => ?_, fun s φ => ?_, fun φ hφ => ?_, ?_⟩
    · simp only [add_mul, marg_add, add_div]
    · simp only [mul_assoc, marg_smul, mul_div_assoc]
    · exact div_nonneg (marg_nonneg (fun d hd => mul_nonneg (hφ d) (mul_nonneg (wt_nonneg h.lightNonneg d) (h.ok.cells_nonneg b hd))) b c) hA.le
    · simp only [one_mul]
      rw [← Pop.amount_eq h.proper h.ok, div_self h0]
  have := hE.cauchy (fun d => g.value k d - q.mean g L lw b k c) (fun d => g.value k' d - q.mean g L lw b k' c)
  unfold Pop.cov Pop.variance Pop.central
  rw [expectOf_eq h.proper h.ok (fun d v => by rw [value_noV hk, value_noV hk']), Pop.expect_num, Pop.expect_num,
    Pop.num_eq h.proper h.ok hk, Pop.num_eq h.proper h.ok hk']
  exact this

theorem correlation (h : PopAt o q g L lw b ask good) {a0 a1 : Char} (hab : ValidPair [a0, a1] b) (ha0 : ask [a0]) (ha1 : ask [a1]) :
    ∃ r, o.getCorrelation (distStr [a0, a1] b) lw = .ok r ∧ r.shape = compShape [a0] ++ compShape [a1] ++ g.shapeOf b ∧
      ∀ k ∈ PyStr.replaceX [a0], ∀ k' ∈ PyStr.replaceX [a1], ∀ c, g.Has c → good c →
        r.get (compIdx k ++ compIdx k' ++ coords b c) = .fin (q.givenCov g L lw b k k' c) /
          .fin (Real.sqrt (q.variance g L lw b k c * q.variance g L lw b k' c)) := by
  obtain ⟨h0, h1⟩ := validPair_sub hab
  obtain ⟨C, c1, c2, c3⟩ := h.covariance hab
  obtain ⟨V0, F0, e0, i0, v0⟩ := h.central _ h0 rfl ha0 2
  obtain ⟨V1, F1, e1, i1, v1⟩ := h.central _ h1 rfl ha1 2
  obtain ⟨r, r1, r2⟩ := corCore_table hab c1 (F := fun k k' c => C.get (compIdx k ++ compIdx k' ++ coords b c))
    ⟨c2, fun _ _ _ _ _ _ => rfl⟩ e0 i0 e1 i1
  refine ⟨r, r1, r2.1, fun k hk k' hk' c hc hgood => ?_⟩
  rw [r2.2 k hk k' hk' c hc]
  beta_reduce
  rw [v0 k hk c hc hgood, v1 k' hk' c hc hgood, Num.fin_mul, Num.sqrt_fin]
  · rw [c3 k hk k' hk' c hc hgood]; rfl
  · have n : ∀ {a k : Char}, ValidPair [a] b → k ∈ PyStr.replaceX [a] → 0 ≤ q.variance g L lw b k c := by
      intro a k hv hk
      refine h.variance_nonneg (fun e => ?_) hc hgood
      obtain rfl := (mem_replaceX hk).1 e
      exact noV_of_valid hv
    exact mul_nonneg (n h0 hk) (n h1 hk')

/-- Pearson's correlation is between -1 and 1. -/
theorem bounded (h : PopAt o q g L lw b ask good) {k k' : Char} (hk : k ≠ 'v') (hk' : k' ≠ 'v') {c : Cell} (hc : g.Has c) (hgood : good c)
    {r : Num} (hr : r = .fin (q.cov g L lw b k k' c) / .fin (Real.sqrt (q.variance g L lw b k c * q.variance g L lw b k' c))) :
    (q.variance g L lw b k c ≠ 0 ∧ q.variance g L lw b k' c ≠ 0 → ∃ x : ℝ,
      x = q.cov g L lw b k k' c / Real.sqrt (q.variance g L lw b k c * q.variance g L lw b k' c) ∧ r = .fin x ∧ -1 ≤ x ∧ x ≤ 1) ∧
    (q.variance g L lw b k c = 0 ∨ q.variance g L lw b k' c = 0 → r = .nan) := by
  have hC := h.cauchy hk hk' hc hgood
  have n1 := h.variance_nonneg (fun e => absurd e hk) hc hgood
  have n2 := h.variance_nonneg (fun e => absurd e hk') hc hgood
  subst hr
  generalize q.variance g L lw b k c = V at *
  generalize q.variance g L lw b k' c = V' at *
  generalize q.cov g L lw b k k' c = C at *
  constructor
  · rintro ⟨h1, h2⟩
    have hp : 0 < V * V' := mul_pos (lt_of_le_of_ne n1 h1.symm) (lt_of_le_of_ne n2 h2.symm)
    have hs := Real.sqrt_pos.2 hp
    refine ⟨_, rfl, Num.fin_div _ _ hs.ne', ?_⟩
    have := Real.abs_le_sqrt hC
    rw [← abs_le, abs_div, abs_of_pos hs]
    exact (div_le_one hs).2 this
  · intro h0
    have hz : V * V' = 0 := by rcases h0 with e | e <;> simp [e]
    have hC0 : C = 0 := by
      rw [hz] at hC
      nlinarith
    rw [hz, hC0, Real.sqrt_zero]
    simp

end PopAt

/-! ### Spread and shape -/

namespace PopAt
variable {o : Obj} {ask : PyStr → Prop} {good : Cell → Prop}

theorem spread (h : PopAt o q g L lw b ask good) {k : Char} (hk : k ∈ ['t','v','x','y','z']) (hb : ValidPair (varOf k) b)
    (ha : ask (varOf k)) :
    ∃ V D, o.getVariance (distStr (varOf k) b) lw = .ok V ∧ o.getDispersion (distStr (varOf k) b) lw = .ok D ∧
      V.shape = compShape (varOf k) ++ g.shapeOf b ∧ D.shape = V.shape ∧
      ∀ c, g.Has c → good c → V.get (compIdx k ++ coords b c) = .fin (q.variance g L lw b k c) ∧
        0 ≤ q.variance g L lw b k c ∧
        q.variance g L lw b k c = q.expect g L lw b k (fun x => x ^ 2) c - q.mean g L lw b k c ^ 2 ∧
        D.get (compIdx k ++ coords b c) = .fin (Real.sqrt (q.variance g L lw b k c)) := by
  obtain ⟨h1, h2, h3⟩ := quantity_facts hk
  obtain ⟨V, F, e, i, v⟩ := h.central _ hb h1 ha 2
  have hkb : k = 'v' → 'v' ∉ b := by rintro rfl; exact noV_of_valid hb
  refine ⟨V, Np.map Num.sqrt V, e, by simp only [Obj.getDispersion, e, Py.ok_bind], i.1, rfl, fun c hc hgood => ?_⟩
  have e1 : V.get (compIdx k ++ coords b c) = .fin (q.variance g L lw b k c) := (i.2 k h2 c hc).trans (v k h2 c hc hgood)
  have n := h.variance_nonneg hkb hc hgood
  refine ⟨e1, n, ?_, by simp only [Np.map, e1, Num.sqrt_fin n]⟩
  obtain ⟨E, hE, hp⟩ := h.functional hkb hc hgood
  unfold Pop.variance
  rw [(central_poly hp 2).1, (central_poly hp 2).2.1, (central_poly hp 2).2.2, hE.var]

theorem shape (h : PopAt o q g L lw b ask good) {k : Char} (hk : k ∈ ['t','v','x','y','z']) (hb : ValidPair (varOf k) b)
    (ha : ask (varOf k)) (f2 : ℝ) :
    ∃ S K X, o.getSkewness (distStr (varOf k) b) lw = .ok S ∧ o.getKurtosis (distStr (varOf k) b) lw = .ok K ∧
      o.getExcessKurtosis f2 (distStr (varOf k) b) lw = .ok X ∧
      ∀ c, g.Has c → good c →
        (q.variance g L lw b k c ≠ 0 → ∃ s u : ℝ,
          s = q.central g L lw b k 3 c / Real.sqrt (q.variance g L lw b k c) ^ 3 ∧
          u = q.central g L lw b k 4 c / Real.sqrt (q.variance g L lw b k c) ^ 4 ∧
          S.get (compIdx k ++ coords b c) = .fin s ∧ K.get (compIdx k ++ coords b c) = .fin u ∧
          X.get (compIdx k ++ coords b c) = .fin (u - 3) ∧ 1 + s ^ 2 ≤ u) ∧
        (q.variance g L lw b k c = 0 → S.get (compIdx k ++ coords b c) = .nan ∧
          K.get (compIdx k ++ coords b c) = .nan ∧ X.get (compIdx k ++ coords b c) = .nan) := by
  obtain ⟨h1, h2, h3⟩ := quantity_facts hk
  have hkb : k = 'v' → 'v' ∉ b := by rintro rfl; exact noV_of_valid hb
  obtain ⟨V, F2, hV, iV, vV⟩ := h.central _ hb h1 ha 2
  obtain ⟨M3, F3, hM3, i3, v3⟩ := h.central _ hb h1 ha 3
  obtain ⟨M4, F4, hM4, i4, v4⟩ := h.central _ hb h1 ha 4
  obtain ⟨S, hS, hS'⟩ := getNormalised_table h3 hM3 i3 hV iV
  obtain ⟨K, hK, hK'⟩ := getNormalised_table h3 hM4 i4 hV iV
  obtain ⟨X, hX, hX1, hX2⟩ := bop_scalar_right (· - ·) K (Num.fin (Obj.normalisedCentralMomentNormal f2 4))
  refine ⟨S, K, X, hS, hK, ?_, fun c hc hgood => ?_⟩
  · simp only [Obj.getExcessKurtosis, Obj.getExcessCentralMoment, hK, Py.ok_bind, Np.sub, hX]
  · have eS := hS'.2 k h2 c hc
    have eK := hK'.2 k h2 c hc
    have eX := hX2 (compIdx k ++ coords b c) (by rw [hK'.1]; exact inBox_comp h3 h2 hc)
    have hn4 : Obj.normalisedCentralMomentNormal f2 4 = 3 := by
      norm_num [Obj.normalisedCentralMomentNormal, Nat.doubleFactorial]
    rw [hn4, eK] at eX
    beta_reduce at eS eK eX
    rw [vV k h2 c hc hgood, v4 k h2 c hc hgood] at eX eK
    rw [vV k h2 c hc hgood, v3 k h2 c hc hgood] at eS
    obtain ⟨E, hE, hp⟩ := h.functional hkb hc hgood
    have n : 0 ≤ q.central g L lw b k 2 c := h.variance_nonneg hkb hc hgood
    have e2 := (central_poly hp 2).1
    have e3 := (central_poly hp 3).1
    have e4 := (central_poly hp 4).1
    have hc0 := hE.centred Polynomial.X
    show ((q.central g L lw b k 2 c ≠ 0 → _) ∧ (q.central g L lw b k 2 c = 0 → _))
    unfold Pop.variance
    generalize q.central g L lw b k 2 c = m2 at *
    generalize q.central g L lw b k 3 c = m3 at *
    generalize q.central g L lw b k 4 c = m4 at *
    rw [Num.sqrt_fin n] at eS eK eX
    simp only [Num.npow_fin] at eS eK eX
    constructor
    · intro hne
      have hvp : 0 < m2 := lt_of_le_of_ne n hne.symm
      have hsp := Real.sqrt_pos.2 hvp
      have hpe := hE.pearson hc0 (by rw [← e2]; exact hvp)
      rw [← e2, ← e3, ← e4] at hpe
      rw [Num.fin_div _ _ (by positivity)] at eS eK eX
      exact ⟨_, _, rfl, rfl, eS, eK, by rw [eX, Num.fin_sub], hpe⟩
    · intro hz
      have hz' := e2.symm.trans hz
      have z3 : m3 = 0 := by
        rw [e3, show ∀ y : Polynomial ℝ, y ^ 3 = y * y ^ 2 from fun y => by ring]
        exact hE.vanish hz' _
      have z4 : m4 = 0 := by
        rw [e4, show ∀ y : Polynomial ℝ, y ^ 4 = y * y ^ 3 from fun y => by ring]
        exact hE.vanish hz' _
      subst hz z3 z4
      simp [eS, eK, eX]

end PopAt

/-! ### Parametric components -/

variable {p : Param} {m : Ingredients}

theorem ParamIs.amount_nil (h : ParamIs p g m L) (c : Cell) : (m.pop g).amount g L false [] c = 1 := by
  rw [Pop.amount_eq h.proper h.pop_ok, ingr_cells, marg_nil]
  simp only [Pop.wt, Bool.false_eq_true, if_false, one_mul]
  have := PS_total h false (by simp)
  simpa [PS, wtdP, pick] using this

theorem ParamIs.norm_amount (h : ParamIs p g m L) (c : Cell) : (m.pop g).norm g L lw b c = (m.pop g).amount g L lw b c := by
  unfold Pop.norm
  split
  · next e =>
    obtain ⟨rfl, rfl⟩ := e
    rw [h.amount_nil]
  · rfl

theorem ParamIs.popAt (h : ParamIs p g m L) (hf : p.f2 = 1) (hl : lw = true → (m.pop g).Shines g L) (b : PyStr) :
    PopAt (obj p.self) (m.pop g) g L lw b (fun _ => True) (fun c => (m.pop g).amount g L lw b c ≠ 0) := by
  have hlw := h.tot_of_light hl
  refine ⟨h.proper, h.cubeIs, h.pop_ok, ingr_poly m h.pop_ok, h.lightNonneg, hl,
    fun c _ h0 => ⟨h0, fun _ _ => h.amount_nil c⟩, fun a hab h1 => ?_, fun a hab h1 _ j => ?_, fun a hab h2 => ?_⟩
  · obtain ⟨M, F, e, i, v⟩ := (param_says none h hl hab h1).mean
    exact ⟨M, F, e, i, fun k hk c hc h0 => by rw [v k hk c hc h0, h.norm_amount]; rfl⟩
  · by_cases ha : a = ['v']
    · subst ha
      have hv := noV_of_valid hab
      have hi : compIdx 'v' = [] := by decide
      obtain ⟨r, r1, r2, r3⟩ := h.central_all lw hlw j hab
      refine ⟨r, fun k c => r.get (compIdx k ++ coords b c), r1, ⟨by rw [r2]; rfl, fun _ _ _ _ => rfl⟩, fun k hk c hc h0 => ?_⟩
      obtain rfl : k = 'v' := by simpa [PyStr.replaceX] using hk
      obtain ⟨e1, e2⟩ := velVal_num h hlw hv (mu_onTX m) (φ := fun x => x) (fun d => (normal_mean _ _).symm) c h0
      obtain ⟨-, e4⟩ := velVal_num h hlw hv (gmom_onTX m p.f2 (velVal g m L lw b (fun d => m.mu d.t d.x d.y) c) j)
        (φ := fun x => (x - velVal g m L lw b (fun d => m.mu d.t d.x d.y) c) ^ j) (fun d => by rw [hf, gmom_one]) c h0
      beta_reduce
      rw [hi, List.nil_append, r3 c hc e1, e4, e2, h.norm_amount]
      rfl
    · obtain ⟨P, m', hT, hm, hval⟩ := h.tab_noV hlw hab h1 ha
      obtain ⟨hc1, hc2⟩ := param_hc_none (p := p) hab h1 ha
      obtain ⟨r, hr, hr'⟩ := getCentral_of_mean (s := p.self) h.proper h.cubeIs hab h1 hc2 hT hm (getMean_table h.proper h.cubeIs hab h1 hc1 hT hm) j
      refine ⟨r, _, hr, hr', fun k hk c hc h0 => ?_⟩
      have hk' : k ≠ 'v' := by
        rintro rfl
        exact ha (noV_of_var hab h1 hk)
      obtain ⟨f1, f2⟩ := hval c hc h0
      have hμ : meanM g P m' k b c = (m.pop g).mean g L lw b k c := by
        unfold meanM
        rw [f2 (g.value k), h.norm_amount]
        unfold Pop.mean
        rw [Pop.expect_num, Pop.num_eq h.proper h.pop_ok hk']
      have hl : g.marg (fun d => (g.value k d - meanM g P m' k b d) ^ j * P d) b c =
          g.marg (fun d => (g.value k d - (m.pop g).mean g L lw b k c) ^ j * P d) b c :=
        marg_congr fun d _ e => by rw [respects_meanM hm k d c e, hμ]
      unfold expectM
      rw [if_neg f1, hl, f2 (fun d => (g.value k d - (m.pop g).mean g L lw b k c) ^ j), h.norm_amount]
      unfold Pop.central
      rw [Pop.expect_num, Pop.num_eq h.proper h.pop_ok hk']
  · rw [ingr_cells, ingr_cells]
    rcases hab with ⟨rfl, ham⟩ | hab
    · obtain ⟨A, hA, hA'⟩ := getP_marg_of_contract (h.contract lw hlw) false a ham
      have hu : unionStr a [] = a := (by decide +kernel : ∀ a ∈ marginals, unionStr a [] = a) a ham
      have hA'' := (isArr_iff (marginals_chars a ham)).1 hA'
      refine ⟨A, by simpa [distStr, obj] using hA, ?_⟩
      rw [show PyStr.replaceX a ++ PyStr.replaceX [] = PyStr.replaceX a by simp [PyStr.replaceX]]
      refine ⟨hA''.1, fun c hc => (hA''.2 c hc).trans ?_⟩
      simp [tab, condTable, Grid.condWt, hu, dvol, paramMarg]
    · have hbm : b ≠ [] := (by decide +kernel : ∀ q ∈ conditionals, q.2 ≠ []) _ hab
      obtain ⟨-, -, -, h4, h5, -⟩ := conditionals_letters _ hab
      have ho : (a, b) ∉ ownConditionals := fun e => by
        have : ∀ p ∈ ownConditionals, p.1.length ≠ 2 := by decide
        exact this _ e h2
      obtain ⟨A, hA, hA'⟩ := getP_cond_of_contract (h.contract lw hlw) false (a, b) hab (Param.logP_none p _ hab ho)
      have hA'' := (isArr_cond_iff h4 h5).1 hA'
      refine ⟨A, by simpa [distStr, hbm, obj] using hA, hA''.1, fun c hc => (hA''.2 c hc).trans ?_⟩
      simp [tab, Grid.condWt, hbm, dvol, paramMarg]

end PKM
