import Verif.Props.NestedMix
import Verif.Props.Tabulate
import Verif.Props.Units
import Verif.Props.Ssp

/-!
# C96: the unit of flux does not matter

Spectra may be given in any unit: multiplying all template spectra by `s > 0` multiplies all light weights by `s`. Distributions and moments, by mass
and by light, do not change, for plain components, parametric components and mixtures. Datacubes are multiplied by `s`.
-/

open scoped Classical

noncomputable section

namespace PKM
open Np Component

/-! ### Specification -/

/-- `get_p` of both objects is the same for all 65 distributions. -/
def SameDistributions (o o' : Obj) (g : Grid) (lw : Bool) : Prop :=
  ∀ density, (∀ w ∈ marginals, Same (o.getP w density lw) (o'.getP w density lw) g w) ∧
    ∀ a b, (a, b) ∈ conditionals → Same (o.getP (condStr a b) density lw) (o'.getP (condStr a b) density lw) g (condStr a b)

/-- Means, central moments, covariances and correlations given `b` are the same where `good`. `ask`: the variables of which the central moments
are asked. -/
structure SameMomentsGiven (o o' : Obj) (g : Grid) (lw : Bool) (b : PyStr) (ask : PyStr → Prop) (good : Cell → Prop) : Prop where
  mean : ∀ q ∈ ['t','v','x','y','z'], ValidPair (varOf q) b →
    SameWhere good (compShape (varOf q)) (compIdx q) (o.getMean (distStr (varOf q) b) lw) (o'.getMean (distStr (varOf q) b) lw) g b
  central : ∀ j, ∀ q ∈ ['t','v','x','y','z'], ValidPair (varOf q) b → ask (varOf q) →
    SameWhere good (compShape (varOf q)) (compIdx q) (o.getCentralMoment (distStr (varOf q) b) j lw) (o'.getCentralMoment (distStr (varOf q) b) j lw) g b
  covariance : ∀ a a', ValidPair [a, a'] b → ∀ q q', varOf q = [a] → varOf q' = [a'] →
    SameWhere good (compShape [a] ++ compShape [a']) (compIdx q ++ compIdx q') (o.getCovariance (distStr [a, a'] b) lw)
      (o'.getCovariance (distStr [a, a'] b) lw) g b
  correlation : ∀ a a', ValidPair [a, a'] b → ask [a] → ask [a'] → ∀ q q', varOf q = [a] → varOf q' = [a'] →
    SameWhere good (compShape [a] ++ compShape [a']) (compIdx q ++ compIdx q') (o.getCorrelation (distStr [a, a'] b) lw)
      (o'.getCorrelation (distStr [a, a'] b) lw) g b

/-- L-moments are the same, wherever the distribution has no nan. -/
def SameLMoments (o o' : Obj) (g : Grid) (lw : Bool) : Prop :=
  ∀ b, ∀ q ∈ ['t','v','z'], ValidPair [q] b → ∀ j : ℕ, 1 ≤ j → ∃ A, o.getP (distStr [q] b) false lw = .ok A ∧
    SameWhere (fun c => ∀ i < g.bins q, ∃ u : ℝ, A.get (i :: coords b c) = .fin u) [] [] (o.getLMoment (distStr [q] b) j lw)
      (o'.getLMoment (distStr [q] b) j lw) g b

/-- The second call returns `s` times the datacube of the first. -/
def TimesFlux (s : ℝ) (r r' : Py (Arr Num)) (n nx ny : ℕ) : Prop :=
  ∃ y y', r = .ok y ∧ r' = .ok y' ∧ y.shape = [n, nx, ny] ∧ y'.shape = [n, nx, ny] ∧
    ∀ k < n, ∀ i < nx, ∀ j < ny, ∃ u : ℝ, y.get [k, i, j] = .fin u ∧ y'.get [k, i, j] = .fin (s * u)

/-- Light weights in the other unit. -/
def inUnit (s : ℝ) (L : ℕ → ℕ → ℝ) (t z : ℕ) : ℝ := s * L t z

/-- Spectra in the other unit. -/
def spectraIn (s : ℝ) (S : ℕ → ℕ → ℕ → ℝ) (t z k : ℕ) : ℝ := s * S t z k

/-- `ch` and `ch'` are members of mixtures with the same stars `q`: plain components with the same table or parametric ones with the same
ingredients, one with the light `L` and one with the light in the other unit. -/
inductive InOtherUnit (g : Grid) (L : ℕ → ℕ → ℝ) (s : ℝ) (ch ch' : Child) (q : Pop) : Prop
  | plain (cube cube' : IFUCube) (stored stored' : Arr Num) (ρ : Cell → ℝ) (ybar ybar' : Option (Arr Num)) (is : BaseIs cube stored g ρ L)
      (is' : BaseIs cube' stored' g ρ (inUnit s L)) (eq : ch = Component.child (baseSelf cube stored) ybar)
      (eq' : ch' = Component.child (baseSelf cube' stored') ybar') (pop : q = tablePop g ρ)
  | parametric (p p' : Param) (m : Ingredients) (ybar ybar' : Option (Arr Num)) (is : ParamIs p g m L) (is' : ParamIs p' g m (inUnit s L))
      (f2 : p.f2 = 1) (f2' : p'.f2 = 1) (eq : ch = Component.child p.self ybar) (eq' : ch' = Component.child p'.self ybar') (pop : q = m.pop g)

variable {g : Grid} {L : ℕ → ℕ → ℝ} {s : ℝ} {lw : Bool} {p p' : Param} {m : Ingredients} {o o' : Obj} {q : Pop}

/-! ### Lemmas: weighting by light in another unit -/

theorem sumCells_unit (f : Cell → ℝ) : g.sumCells (fun d => s * f d) = s * g.sumCells f := by
  unfold Grid.sumCells
  simp only [Finset.mul_sum]

theorem sumTXZ_unit (f : Cell → ℝ) : Ingredients.sumTXZ g (fun d => s * f d) = s * Ingredients.sumTXZ g f := by
  unfold Ingredients.sumTXZ
  simp only [Finset.mul_sum]

theorem unit_wtdP (hs : 0 < s) (P : Cell → ℝ) (lw : Bool) : wtdP g (inUnit s L) P lw = wtdP g L P lw := by
  unfold wtdP
  split
  · funext c
    unfold Grid.lightP inUnit
    simp only [mul_assoc, sumCells_unit]
    rw [mul_div_mul_left _ _ hs.ne']
  · rfl

theorem unit_light (P : Cell → ℝ) : totalLight g (inUnit s L) P = s * totalLight g L P := by
  unfold totalLight inUnit
  simp only [mul_assoc, sumCells_unit]

theorem unit_weight (hs : 0 < s) (lw : Bool) : m.weight g (inUnit s L) lw = m.weight g L lw := by
  funext c
  unfold Ingredients.weight inUnit
  simp only [mul_assoc, sumCells_unit]
  rw [mul_div_mul_left _ _ hs.ne']

theorem unit_weightTXZ (hs : 0 < s) (lw : Bool) : m.weightTXZ g (inUnit s L) lw = m.weightTXZ g L lw := by
  funext c
  unfold Ingredients.weightTXZ inUnit
  simp only [mul_assoc, sumTXZ_unit]
  rw [mul_div_mul_left _ _ hs.ne']

theorem unit_marginal (hs : 0 < s) (lw : Bool) : m.marginal g (inUnit s L) lw = m.marginal g L lw := by
  funext w c
  unfold Ingredients.marginal
  rw [unit_weight hs, unit_weightTXZ hs]

/-- Weights of stars change by a constant factor. -/
def unitWt (s : ℝ) (lw : Bool) : ℝ := if lw then s else 1

theorem unitWt_pos (hs : 0 < s) (lw : Bool) : 0 < unitWt s lw := by
  unfold unitWt; split <;> simp [hs]

theorem unit_wt (lw : Bool) (c : Cell) : Pop.wt (inUnit s L) lw c = unitWt s lw * Pop.wt L lw c := by
  unfold Pop.wt unitWt inUnit; split <;> simp

theorem ite_unit (a : Prop) [Decidable a] (u x y : ℝ) : (if a then u * x * y else 0) = u * (if a then x * y else 0) := by
  split <;> ring

theorem unit_amount (b : PyStr) (c : Cell) : q.amount g (inUnit s L) lw b c = unitWt s lw * q.amount g L lw b c := by
  unfold Pop.amount
  simp only [unit_wt, ite_unit, sumCells_unit, sumTXZ_unit]
  split <;> rfl

theorem unit_lightOf (b : PyStr) : q.lightOf g (inUnit s L) b = s * q.lightOf g L b := by
  unfold Pop.lightOf inUnit
  simp only [mul_assoc, sumCells_unit, sumTXZ_unit]
  split <;> rfl

theorem unit_popMarginal (hs : 0 < s) (b : PyStr) (c : Cell) : q.marginal g (inUnit s L) lw b c = q.marginal g L lw b c := by
  unfold Pop.marginal
  rw [unit_amount, unit_lightOf]
  unfold unitWt
  split
  · exact mul_div_mul_left _ _ hs.ne'
  · simp

theorem unit_cond (hs : 0 < s) (a b : PyStr) (c : Cell) : q.cond g (inUnit s L) lw a b c = q.cond g L lw a b c := by
  unfold Pop.cond
  simp only [unit_popMarginal hs]

theorem unit_num (b : PyStr) (k : Char) (φ : ℝ → ℝ) (c : Cell) : q.num g (inUnit s L) lw b k φ c = unitWt s lw * q.num g L lw b k φ c := by
  unfold Pop.num
  simp only [unit_wt, ite_unit, sumCells_unit, sumTXZ_unit]
  split
  · rfl
  · split <;> rfl

theorem unit_expect (hs : 0 < s) (b : PyStr) (k : Char) (φ : ℝ → ℝ) (c : Cell) : q.expect g (inUnit s L) lw b k φ c = q.expect g L lw b k φ c := by
  rw [Pop.expect_num, Pop.expect_num, unit_num, unit_amount, mul_div_mul_left _ _ (unitWt_pos hs lw).ne']

theorem unit_mean (hs : 0 < s) (b : PyStr) (k : Char) (c : Cell) : q.mean g (inUnit s L) lw b k c = q.mean g L lw b k c := unit_expect hs _ _ _ _

theorem unit_central (hs : 0 < s) (b : PyStr) (k : Char) (j : ℕ) (c : Cell) :
    q.central g (inUnit s L) lw b k j c = q.central g L lw b k j c := by
  unfold Pop.central
  rw [unit_mean hs, unit_expect hs]

theorem unit_expectOf (hs : 0 < s) (b : PyStr) (f : Cell → ℝ) (c : Cell) : q.expectOf g (inUnit s L) lw b f c = q.expectOf g L lw b f c := by
  unfold Pop.expectOf
  simp only [unit_wt, ite_unit, sumCells_unit, sumTXZ_unit, unit_amount, ← mul_ite]
  exact mul_div_mul_left _ _ (unitWt_pos hs lw).ne'

theorem unit_binCov (hs : 0 < s) (b : PyStr) (k : Char) (c : Cell) : q.binCov g (inUnit s L) lw b k c = q.binCov g L lw b k c := by
  unfold Pop.binCov
  simp only [unit_wt, ite_unit, sumCells_unit, unit_popMarginal hs, unit_mean hs, unit_lightOf]
  congr 1
  unfold unitWt
  split
  · exact mul_div_mul_left _ _ hs.ne'
  · simp

theorem unit_givenCov (hs : 0 < s) (b : PyStr) (k k' : Char) (c : Cell) :
    q.givenCov g (inUnit s L) lw b k k' c = q.givenCov g L lw b k k' c := by
  unfold Pop.givenCov Pop.cov
  simp only [unit_binCov hs, unit_mean hs, unit_expectOf hs]

/-- Two objects that describe the same stars in different units. -/
theorem popAt_units {b : PyStr} {ask : PyStr → Prop} {good : Cell → Prop} (hs : 0 < s) (h : PopAt o q g L lw b ask good)
    (h' : PopAt o' q g (inUnit s L) lw b ask good) : SameMomentsGiven o o' g lw b ask good where
  mean k hk hv := by
    obtain ⟨k1, k2, -⟩ := quantity_facts hk
    obtain ⟨M, F, e, i, v⟩ := h.mean _ hv k1
    obtain ⟨M', F', e', i', v'⟩ := h'.mean _ hv k1
    exact ⟨M, M', e, e', i.1, i'.1, fun c hc h0 => by rw [i.2 k k2 c hc, i'.2 k k2 c hc, v k k2 c hc h0, v' k k2 c hc h0, unit_mean hs]⟩
  central j k hk hv ha := by
    obtain ⟨k1, k2, -⟩ := quantity_facts hk
    obtain ⟨M, F, e, i, v⟩ := h.central _ hv k1 ha j
    obtain ⟨M', F', e', i', v'⟩ := h'.central _ hv k1 ha j
    exact ⟨M, M', e, e', i.1, i'.1, fun c hc h0 => by rw [i.2 k k2 c hc, i'.2 k k2 c hc, v k k2 c hc h0, v' k k2 c hc h0, unit_central hs]⟩
  covariance a a' hv k k' hk hk' := by
    obtain ⟨r, r1, r2, r3⟩ := h.covariance hv
    obtain ⟨r', r1', r2', r3'⟩ := h'.covariance hv
    exact ⟨r, r', r1, r1', r2, r2', fun c hc h0 => by
      rw [r3 k (varOf_mem hk) k' (varOf_mem hk') c hc h0, r3' k (varOf_mem hk) k' (varOf_mem hk') c hc h0, unit_givenCov hs]⟩
  correlation a a' hv ha ha' k k' hk hk' := by
    obtain ⟨r, r1, r2, r3⟩ := h.correlation hv ha ha'
    obtain ⟨r', r1', r2', r3'⟩ := h'.correlation hv ha ha'
    exact ⟨r, r', r1, r1', r2, r2', fun c hc h0 => by
      rw [r3 k (varOf_mem hk) k' (varOf_mem hk') c hc h0, r3' k (varOf_mem hk) k' (varOf_mem hk') c hc h0, unit_givenCov hs]
      unfold Pop.variance
      rw [unit_central hs, unit_central hs]⟩

/-- L-moments of equal distributions are equal. -/
theorem sameLMoments_of (hD : SameDistributions o o' g lw)
    (h : ∀ k ∈ ['t','v','z'], ∀ b, ValidPair [k] b → ∀ j : ℕ, 1 ≤ j → ∃ A r, o.getP (distStr [k] b) false lw = .ok A ∧
      o.getLMoment (distStr [k] b) j lw = .ok r ∧ r.shape = g.shapeOf b ∧ ∀ c, g.Has c → ∀ π : ℕ → ℝ,
        (∀ i < g.bins k, A.get (i :: coords b c) = .fin (π i)) → r.get (coords b c) = .fin (lmoment (g.bins k) (g.edge k) π j))
    (h' : ∀ k ∈ ['t','v','z'], ∀ b, ValidPair [k] b → ∀ j : ℕ, 1 ≤ j → ∃ A r, o'.getP (distStr [k] b) false lw = .ok A ∧
      o'.getLMoment (distStr [k] b) j lw = .ok r ∧ r.shape = g.shapeOf b ∧ ∀ c, g.Has c → ∀ π : ℕ → ℝ,
        (∀ i < g.bins k, A.get (i :: coords b c) = .fin (π i)) → r.get (coords b c) = .fin (lmoment (g.bins k) (g.edge k) π j)) :
    SameLMoments o o' g lw := by
  intro b k hk hb j hj
  obtain ⟨A, r, a1, a2, a3, a4⟩ := h k hk b hb j hj
  obtain ⟨A', r', b1, b2, b3, b4⟩ := h' k hk b hb j hj
  have key : ∀ d, g.Has d → A.get (coords [k] d ++ coords b d) = A'.get (coords [k] d ++ coords b d) := by
    rcases hb with ⟨rfl, hm⟩ | hab
    · obtain ⟨x, x', h1, h2, -, -, h3⟩ := (hD false).1 _ hm
      have e : distStr [k] [] = [k] := by simp [distStr]
      rw [e] at a1 b1
      obtain rfl : _ = A := Except.ok.inj (h1.symm.trans a1)
      obtain rfl : _ = A' := Except.ok.inj (h2.symm.trans b1)
      intro d hd
      have := h3 d hd trivial
      simpa [coords] using this
    · obtain ⟨x, x', h1, h2, -, -, h3⟩ := (hD false).2 _ _ hab
      have ne : b ≠ [] := (by decide : ∀ vw ∈ conditionals, vw.2 ≠ []) _ hab
      rw [distStr, if_neg ne] at a1 b1
      obtain rfl : _ = A := Except.ok.inj (h1.symm.trans a1)
      obtain rfl : _ = A' := Except.ok.inj (h2.symm.trans b1)
      intro d hd
      have := h3 d hd trivial
      rwa [List.nil_append, coords_condStr] at this
  refine ⟨A, a1, r, r', a2, b2, a3, b3, fun c hc hA => ?_⟩
  choose! π hπ using hA
  rw [List.nil_append, a4 c hc π hπ, b4 c hc π fun i hi => ?_]
  obtain ⟨d, hd, d1, d2⟩ := cell_at hb hk hc hi
  have := key d hd
  rw [d1, d2, List.singleton_append] at this
  rw [← this, hπ i hi]

/-! ### Plain components -/

section
variable {cube cube' : IFUCube} {stored stored' : Arr Num} {ρ : Cell → ℝ}

/-- Distributions of a plain component, by mass and by light, do not depend on the unit of the light weights. -/
theorem C96_plain_distributions (hs : 0 < s) (h : BaseIs cube stored g ρ L) (h' : BaseIs cube' stored' g ρ (inUnit s L))
    (hl : lw = true → 0 < totalLight g L (massP g ρ)) :
    SameDistributions (obj (baseSelf cube stored)) (obj (baseSelf cube' stored')) g lw := by
  have hl' : lw = true → 0 < totalLight g (inUnit s L) (massP g ρ) := fun e => by rw [unit_light]; exact mul_pos hs (hl e)
  refine fun density => ⟨fun w hw => ?_, fun a b hab => ?_⟩
  · exact Same.of_gives (getP_marg_of_contract (h.contract lw hl) density w hw) (getP_marg_of_contract (h'.contract lw hl') density w hw)
      fun c _ => by simp only [unit_wtdP hs]
  · exact Same.of_gives (getP_cond_of_contract (h.contract lw hl) density (a, b) hab (baseLogP_none _ _ (condStr_not_marginal a b)))
      (getP_cond_of_contract (h'.contract lw hl') density (a, b) hab (baseLogP_none _ _ (condStr_not_marginal a b)))
      fun c _ => by simp only [unit_wtdP hs]

/-- Nor do its moments, anywhere. -/
theorem C96_plain_moments (hs : 0 < s) (h : BaseIs cube stored g ρ L) (h' : BaseIs cube' stored' g ρ (inUnit s L))
    (hl : lw = true → 0 < totalLight g L (massP g ρ)) :
    (∀ b, SameMomentsGiven (obj (baseSelf cube stored)) (obj (baseSelf cube' stored')) g lw b (fun _ => True) (fun _ => True)) ∧
    ∀ b, ∀ q ∈ ['t','v','z'], ValidPair [q] b → ∀ j : ℕ, 1 ≤ j → Same ((obj (baseSelf cube stored)).getLMoment (distStr [q] b) j lw)
      ((obj (baseSelf cube' stored')).getLMoment (distStr [q] b) j lw) g b := by
  have hl' : lw = true → 0 < totalLight g (inUnit s L) (massP g ρ) := fun e => by rw [unit_light]; exact mul_pos hs (hl e)
  refine ⟨fun b => ⟨fun q hq hb => ?_, fun j q hq hb _ => ?_, fun a a' hab q q' hq hq' => ?_, fun a a' hab _ _ q q' hq hq' => ?_⟩,
    fun b q hq hb j hj => ?_⟩
  · obtain ⟨r, h1, h2, h3⟩ := C13_means h hl q hq b hb
    obtain ⟨r', h1', h2', h3'⟩ := C13_means h' hl' q hq b hb
    exact ⟨r, r', h1, h1', h2, h2', fun c hc _ => by rw [h3 c hc, h3' c hc, unit_wtdP hs]⟩
  · obtain ⟨r, h1, h2, h3⟩ := C16_central_moments h hl q hq b hb j
    obtain ⟨r', h1', h2', h3'⟩ := C16_central_moments h' hl' q hq b hb j
    exact ⟨r, r', h1, h1', h2, h2', fun c hc _ => by rw [h3 c hc, h3' c hc, unit_wtdP hs]⟩
  · obtain ⟨r, h1, h2, h3⟩ := C18_covariance h hl a a' b hab
    obtain ⟨r', h1', h2', h3'⟩ := C18_covariance h' hl' a a' b hab
    exact ⟨r, r', h1, h1', h2, h2', fun c hc _ => by rw [h3 q q' hq hq' c hc, h3' q q' hq hq' c hc, unit_wtdP hs]⟩
  · obtain ⟨hv0, hv1⟩ := validPair_sub hab
    obtain ⟨C, hC, hC'⟩ := (h.std hl b).covarianceEx hab
    obtain ⟨V0, hV0, hV0'⟩ := (h.std hl b).centralEx hv0 rfl 2
    obtain ⟨V1, hV1, hV1'⟩ := (h.std hl b).centralEx hv1 rfl 2
    obtain ⟨R, hR, hR'⟩ := corCore_table hab hC hC' hV0 hV0' hV1 hV1'
    obtain ⟨D, hD, hD'⟩ := (h'.std hl' b).covarianceEx hab
    obtain ⟨W0, hW0, hW0'⟩ := (h'.std hl' b).centralEx hv0 rfl 2
    obtain ⟨W1, hW1, hW1'⟩ := (h'.std hl' b).centralEx hv1 rfl 2
    obtain ⟨Q, hQ, hQ'⟩ := corCore_table hab hD hD' hW0 hW0' hW1 hW1'
    refine ⟨R, Q, hR, hQ, hR'.1, hQ'.1, fun c hc _ => ?_⟩
    rw [hR'.2 q (varOf_mem hq) q' (varOf_mem hq') c hc, hQ'.2 q (varOf_mem hq) q' (varOf_mem hq') c hc]
    simp only [unit_wtdP hs]
  · exact Same.of_gives (C20_l_moments h hl q hq b hb j hj) (C20_l_moments h' hl' q hq b hb j hj) fun c _ => by simp only [unit_wtdP hs]

end

/-! ### Parametric components -/

theorem unit_shines (hs : 0 < s) (h : Shines g m L) : Shines g m (inUnit s L) := by
  unfold Shines inUnit at *
  simp only [mul_assoc, sumTXZ_unit]
  exact mul_pos hs h

theorem unit_popShines (hs : 0 < s) (h : q.Shines g L) : q.Shines g (inUnit s L) := by
  unfold Pop.Shines at *
  rw [unit_lightOf]
  exact mul_pos hs h

/-- Distributions of a parametric component do not depend on the unit of the light weights. -/
theorem C96_parametric_distributions (hs : 0 < s) (h : ParamIs p g m L) (h' : ParamIs p' g m (inUnit s L)) (hl : lw = true → Shines g m L) :
    SameDistributions (obj p.self) (obj p'.self) g lw := by
  have hl' : lw = true → Shines g m (inUnit s L) := fun e => unit_shines hs (hl e)
  refine fun density => ⟨fun w hw => ?_, fun v w hab => ?_⟩
  · obtain ⟨r, h1, h2, h3⟩ := C32_marginals h density lw hl w hw
    obtain ⟨r', h1', h2', h3'⟩ := C32_marginals h' density lw hl' w hw
    exact ⟨r, r', h1, h1', h2, h2', fun c hc _ => by rw [List.nil_append, h3 c hc, h3' c hc, unit_marginal hs]⟩
  · have go : ∀ {q q' : Arr Num}, getP p.self (condStr v w) density lw = .ok q → getP p'.self (condStr v w) density lw = .ok q' →
        q.shape = g.shapeOf v ++ g.shapeOf w → q'.shape = g.shapeOf v ++ g.shapeOf w →
        (∀ c, g.Has c → q.get (coords v c ++ coords w c) = q'.get (coords v c ++ coords w c)) →
        Same (getP p.self (condStr v w) density lw) (getP p'.self (condStr v w) density lw) g (condStr v w) := fun e e' k k' hv =>
      ⟨_, _, e, e', by rw [k, shapeOf_condStr]; rfl, by rw [k', shapeOf_condStr]; rfl, fun c hc _ => by
        rw [List.nil_append, coords_condStr]; exact hv c hc⟩
    by_cases ho : (v, w) ∈ [(['x'],['t']), (['v'],['t','x']), (['z'],['t','x'])]
    · simp only [List.mem_cons, Prod.mk.injEq, List.not_mem_nil, or_false] at ho
      cases lw
      · obtain ⟨⟨q1, i1, i2, i3⟩, ⟨q2, j1, j2, j3⟩, ⟨q3, k1, k2, k3⟩⟩ := C32_ingredients h density
        obtain ⟨⟨q1', i1', i2', i3'⟩, ⟨q2', j1', j2', j3'⟩, ⟨q3', k1', k2', k3'⟩⟩ := C32_ingredients h' density
        rcases ho with ⟨rfl, rfl⟩ | ⟨rfl, rfl⟩ | ⟨rfl, rfl⟩
        · exact go i1 i1' i2 i2' fun c hc => (i3 c hc).trans (i3' c hc).symm
        · exact go j1 j1' j2 j2' fun c hc => (j3 c hc).trans (j3' c hc).symm
        · exact go k1 k1' k2 k2' fun c hc => (k3 c hc).trans (k3' c hc).symm
      · obtain ⟨⟨q1, i1, i2, i3⟩, ⟨q2, j1, j2, j3⟩, ⟨q3, k1, k2, k3⟩⟩ := C32_light_ingredients h density (hl rfl)
        obtain ⟨⟨q1', i1', i2', i3'⟩, ⟨q2', j1', j2', j3'⟩, ⟨q3', k1', k2', k3'⟩⟩ := C32_light_ingredients h' density (hl' rfl)
        simp only [unit_marginal hs, unit_weight hs] at i3' j3' k3'
        rcases ho with ⟨rfl, rfl⟩ | ⟨rfl, rfl⟩ | ⟨rfl, rfl⟩
        · exact go i1 i1' i2 i2' fun c hc => (i3 c hc).trans (i3' c hc).symm
        · exact go j1 j1' j2 j2' fun c hc => (j3 c hc).trans (j3' c hc).symm
        · exact go k1 k1' k2 k2' fun c hc => (k3 c hc).trans (k3' c hc).symm
    · obtain ⟨q, h1, h2, h3⟩ := C32_conditionals h density lw hl v w hab ho
      obtain ⟨q', h1', h2', h3'⟩ := C32_conditionals h' density lw hl' v w hab ho
      simp only [unit_marginal hs] at h3'
      exact go h1 h1' h2 h2' fun c hc => (h3 c hc).trans (h3' c hc).symm

theorem param_shines : (m.pop g).Shines g L ↔ Shines g m L := by
  unfold Pop.Shines Pop.lightOf
  rw [if_neg (by decide), ingr_stars]
  rfl

/-- Nor do its moments, wherever there are stars. -/
theorem C96_parametric_moments (hs : 0 < s) (h : ParamIs p g m L) (h' : ParamIs p' g m (inUnit s L)) (hf : p.f2 = 1) (hf' : p'.f2 = 1)
    (hl : lw = true → Shines g m L) :
    (∀ b, SameMomentsGiven (obj p.self) (obj p'.self) g lw b (fun _ => True) (fun c => (m.pop g).amount g L lw b c ≠ 0)) ∧
    SameLMoments (obj p.self) (obj p'.self) g lw := by
  have l1 : lw = true → (m.pop g).Shines g L := fun e => param_shines.2 (hl e)
  have l2 : lw = true → (m.pop g).Shines g (inUnit s L) := fun e => unit_popShines hs (l1 e)
  refine ⟨fun b => popAt_units hs (h.popAt hf l1 b) ?_, sameLMoments_of (C96_parametric_distributions hs h h' hl)
    (fun k hk b hb j hj => h.lmoments_of l1 hk hb j hj) (fun k hk b hb j hj => h'.lmoments_of l2 hk hb j hj)⟩
  have := h'.popAt hf' l2 b
  have e : (fun c => (m.pop g).amount g (inUnit s L) lw b c ≠ 0) = fun c => (m.pop g).amount g L lw b c ≠ 0 := by
    funext c
    rw [unit_amount]
    simp [(unitWt_pos hs lw).ne']
  rwa [e] at this

/-! ### Mixtures -/

section
variable {mx mx' : Mix} {n : ℕ} {ω : ℕ → ℝ} {pop : ℕ → Pop}

/-- Distributions of a mixture do not depend on the unit of the light weights. -/
theorem C96_mixture_distributions (hs : 0 < s) (h : MixOf mx g n ω pop L) (h' : MixOf mx' g n ω pop (inUnit s L))
    (hl : lw = true → (mixPop n ω pop).Shines g L) : SameDistributions (Mix.obj mx) (Mix.obj mx') g lw := by
  have hl' : lw = true → (mixPop n ω pop).Shines g (inUnit s L) := fun e => unit_popShines hs (hl e)
  refine fun density => ⟨fun w hw => ?_, fun v w hab => ?_⟩
  · obtain ⟨r, h1, h2, h3⟩ := C65_marginals h density lw hl w hw
    obtain ⟨r', h1', h2', h3'⟩ := C65_marginals h' density lw hl' w hw
    exact ⟨r, r', h1, h1', h2, h2', fun c hc _ => by rw [List.nil_append, h3 c hc, h3' c hc, unit_popMarginal hs]⟩
  · obtain ⟨r, h1, h2, h3⟩ := C65_conditionals h density lw hl v w hab
    obtain ⟨r', h1', h2', h3'⟩ := C65_conditionals h' density lw hl' v w hab
    exact ⟨r, r', h1, h1', by rw [h2, shapeOf_condStr]; rfl, by rw [h2', shapeOf_condStr]; rfl, fun c hc _ => by
      rw [List.nil_append, coords_condStr, h3 c hc, h3' c hc, unit_cond hs]⟩

/-- The mean that a mixture returns, unconditional or conditional. -/
def mixMeanAny (g : Grid) (L : ℕ → ℕ → ℝ) (lw : Bool) (n : ℕ) (ω : ℕ → ℝ) (pop : ℕ → Pop) (b : PyStr) (k : Char) (c : Cell) : ℝ :=
  if b = [] then (mixPop n ω pop).num g L lw [] k (fun x => x) c / (mixPop n ω pop).norm g L lw [] c else mixMean g L lw n ω pop b k c

/-- The central moment that a mixture returns, about the centres `μ` of its members. -/
def mixCentral (g : Grid) (L : ℕ → ℕ → ℝ) (lw : Bool) (n : ℕ) (ω : ℕ → ℝ) (pop : ℕ → Pop) (b : PyStr) (k : Char) (j : ℕ) (μ : ℕ → ℝ) (c : Cell) : ℝ :=
  if b = [] then ∑ i : Fin n, ω i * rwOf g L lw n ω pop i * ((pop i).num g L lw [] k (fun x => (x - μ i) ^ j) c / (pop i).norm g L lw [] c)
  else (∑ i : Fin n, shareIn g L lw n ω pop b i * (pop i).marginal g L lw b c * (pop i).expect g L lw b k (fun x => (x - μ i) ^ j) c) /
    (mixPop n ω pop).marginal g L lw b c

theorem unit_norm {b : PyStr} (c : Cell) : q.norm g (inUnit s L) lw b c = (if b = [] then unitWt s lw else unitWt s lw) * q.norm g L lw b c := by
  unfold Pop.norm
  simp only [ite_self]
  split
  · next e => rw [e.2]; simp [unitWt]
  · exact unit_amount b c

theorem unit_numNorm (hs : 0 < s) (b : PyStr) (k : Char) (φ : ℝ → ℝ) (c : Cell) :
    q.num g (inUnit s L) lw b k φ c / q.norm g (inUnit s L) lw b c = q.num g L lw b k φ c / q.norm g L lw b c := by
  rw [unit_num, unit_norm, ite_self, mul_div_mul_left _ _ (unitWt_pos hs lw).ne']

theorem unit_rwOf (hs : 0 < s) : rwOf g (inUnit s L) lw n ω pop = rwOf g L lw n ω pop := by
  funext i
  unfold rwOf
  simp only [unit_lightOf, mul_left_comm _ s, ← Finset.mul_sum]
  rw [mul_div_mul_left _ _ hs.ne']

theorem unit_shareIn (hs : 0 < s) (b : PyStr) : shareIn g (inUnit s L) lw n ω pop b = shareIn g L lw n ω pop b := by
  funext i
  unfold shareIn
  simp only [unit_lightOf, mul_left_comm _ s, ← Finset.mul_sum]
  rw [mul_div_mul_left _ _ hs.ne']

theorem unit_mixMean (hs : 0 < s) (b : PyStr) (k : Char) (c : Cell) : mixMeanAny g (inUnit s L) lw n ω pop b k c = mixMeanAny g L lw n ω pop b k c := by
  unfold mixMeanAny mixMean
  simp only [unit_numNorm hs, unit_shareIn hs, unit_popMarginal hs, unit_expect hs]

theorem unit_mixCentral (hs : 0 < s) (b : PyStr) (k : Char) (j : ℕ) (μ : ℕ → ℝ) (c : Cell) :
    mixCentral g (inUnit s L) lw n ω pop b k j μ c = mixCentral g L lw n ω pop b k j μ c := by
  unfold mixCentral
  simp only [unit_numNorm hs, unit_shareIn hs, unit_popMarginal hs, unit_expect hs, unit_rwOf hs]

theorem respects_mixMean (b : PyStr) (k : Char) : Respects b (mixMeanAny g L lw n ω pop b k) := by
  intro d d' e
  unfold mixMeanAny
  split
  · next hb =>
    subst hb
    simp only [Pop.num, Pop.norm, Pop.amount, e]
  · simp only [mixMean, Pop.marginal, Pop.expect, Pop.amount, e]

theorem unit_stars (hs : 0 < s) (b : PyStr) (c : Cell) :
    (∀ i < n, (pop i).amount g (inUnit s L) lw b c ≠ 0) ↔ ∀ i < n, (pop i).amount g L lw b c ≠ 0 := by
  simp only [unit_amount, ne_eq, mul_eq_zero, (unitWt_pos hs lw).ne', false_or]

/-- Central moments of both mixtures, about the same centres. -/
theorem mixCentral_both (hs : 0 < s) (h : MixOf mx g n ω pop L) (h' : MixOf mx' g n ω pop (inUnit s L))
    (hl : lw = true → ∀ i < n, (pop i).Shines g L) {a b : PyStr} (hab : ValidPair a b) (h1 : a.length = 1) (j : ℕ) (cen : ℕ → Cell → Cell)
    (hsay : ∀ (i : ℕ) (hi : i < mx.children.length), MemberSays mx.children[i] (pop i) g L lw a b (cen i) True)
    (hsay' : ∀ (i : ℕ) (hi : i < mx'.children.length), MemberSays mx'.children[i] (pop i) g (inUnit s L) lw a b (cen i) True) :
    ∃ r r' F F', Mix.getCentralMoment mx (distStr a b) j lw = .ok r ∧ Mix.getCentralMoment mx' (distStr a b) j lw = .ok r' ∧ IsMom g a b r F ∧
      IsMom g a b r' F' ∧ ∀ k ∈ PyStr.replaceX a, ∀ c, g.Has c → (∀ i < n, (pop i).amount g L lw b c ≠ 0) →
        (∀ i < n, g.Has (cen i c) ∧ ∀ i' < n, (pop i').amount g L lw b (cen i c) ≠ 0) → ∃ u, F k c = .fin u ∧ F' k c = .fin u := by
  have l2 : lw = true → ∀ i < n, (pop i).Shines g (inUnit s L) := fun e i hi => unit_popShines hs (hl e i hi)
  obtain ⟨M, Fm, e, i, v⟩ := h.mean_is hl hab h1
  obtain ⟨M', Fm', e', i', v'⟩ := h'.mean_is l2 hab h1
  obtain ⟨r, F, r1, r2, r3⟩ := h.central_is hl hab h1 j e i hsay
  obtain ⟨r', F', r1', r2', r3'⟩ := h'.central_is l2 hab h1 j e' i' hsay'
  refine ⟨r, r', F, F', r1, r1', r2, r2', fun k hk c hc h0 hcen => ⟨mixCentral g L lw n ω pop b k j (fun i => mixMeanAny g L lw n ω pop b k (cen i c)) c, ?_, ?_⟩⟩
  · have := r3 k hk c (fun i => mixMeanAny g L lw n ω pop b k (cen i c)) hc h0 fun i hi => v k hk _ (hcen i hi).1 (hcen i hi).2
    unfold mixCentral
    exact this
  · have := r3' k hk c (fun i => mixMeanAny g L lw n ω pop b k (cen i c)) hc ((unit_stars hs b c).2 h0) fun i hi =>
      (v' k hk _ (hcen i hi).1 ((unit_stars hs b _).2 (hcen i hi).2)).trans (congrArg Num.fin (unit_mixMean hs b k (cen i c)))
    rw [← unit_mixCentral hs]
    unfold mixCentral
    exact this

/-- Nor do its moments, where all members have stars. The next theorem is about the central moments of velocity given age, position and
metallicity. -/
theorem C96_mixture_moments (hs : 0 < s) (h : MixOf mx g n ω pop L) (h' : MixOf mx' g n ω pop (inUnit s L))
    (hl : lw = true → ∀ i < n, (pop i).Shines g L)
    (hm : ∀ (i : ℕ) (hi : i < mx.children.length), IsMember1 g L mx.children[i] (pop i))
    (hm' : ∀ (i : ℕ) (hi : i < mx'.children.length), IsMember1 g (inUnit s L) mx'.children[i] (pop i)) :
    (∀ b, SameMomentsGiven (Mix.obj mx) (Mix.obj mx') g lw b (fun a => ¬ (a = ['v'] ∧ b = ['t','x','z']))
      (fun c => ∀ i < n, (pop i).amount g L lw b c ≠ 0)) ∧
    SameLMoments (Mix.obj mx) (Mix.obj mx') g lw := by
  have l2 : lw = true → ∀ i < n, (pop i).Shines g (inUnit s L) := fun e i hi => unit_popShines hs (hl e i hi)
  refine ⟨fun b => ?_, sameLMoments_of (C96_mixture_distributions hs h h' fun e => mix_shines h (hl e))
    (fun k hk b hb j hj => h.lmoments_of hl hk hb j hj) (fun k hk b hb j hj => h'.lmoments_of l2 hk hb j hj)⟩
  have mean : ∀ a, ValidPair a b → a.length = 1 → ∃ M M' F F', Mix.getMean mx (distStr a b) lw = .ok M ∧ Mix.getMean mx' (distStr a b) lw = .ok M' ∧
      IsMom g a b M F ∧ IsMom g a b M' F' ∧ ∀ k ∈ PyStr.replaceX a, ∀ c, g.Has c → (∀ i < n, (pop i).amount g L lw b c ≠ 0) →
        F k c = .fin (mixMeanAny g L lw n ω pop b k c) ∧ F' k c = .fin (mixMeanAny g L lw n ω pop b k c) := fun a hab h1 => by
    obtain ⟨M, F, e, i, v⟩ := h.mean_is hl hab h1
    obtain ⟨M', F', e', i', v'⟩ := h'.mean_is l2 hab h1
    exact ⟨M, M', F, F', e, e', i, i', fun k hk c hc h0 => ⟨v k hk c hc h0, (v' k hk c hc ((unit_stars hs b c).2 h0)).trans
      (congrArg Num.fin (unit_mixMean hs b k c))⟩⟩
  have cen := fun a (hab : ValidPair a b) (h1 : a.length = 1) (ha : ¬ (a = ['v'] ∧ b = ['t','x','z'])) j => mixCentral_both hs h h' hl hab h1 j
    (fun _ c => c) (fun i hi => (hm i hi).says (fun e => hl e i (h.children ▸ hi)) hab h1 ha)
    (fun i hi => (hm' i hi).says (fun e => l2 e i (h'.children ▸ hi)) hab h1 ha)
  have cov : ∀ a a', ValidPair [a, a'] b → ∃ r r', (Mix.obj mx).getCovariance (distStr [a, a'] b) lw = .ok r ∧
      (Mix.obj mx').getCovariance (distStr [a, a'] b) lw = .ok r' ∧ r.shape = compShape [a] ++ compShape [a'] ++ g.shapeOf b ∧
      r'.shape = compShape [a] ++ compShape [a'] ++ g.shapeOf b ∧ ∀ k ∈ PyStr.replaceX [a], ∀ k' ∈ PyStr.replaceX [a'], ∀ c, g.Has c →
        (∀ i < n, (pop i).amount g L lw b c ≠ 0) → r.get (compIdx k ++ compIdx k' ++ coords b c) = r'.get (compIdx k ++ compIdx k' ++ coords b c) := by
    intro a a' hab
    obtain ⟨h0, h1⟩ := validPair_sub hab
    obtain ⟨M0, M0', F0, F0', e0, e0', i0, i0', v0⟩ := mean _ h0 rfl
    obtain ⟨M1, M1', F1, F1', e1, e1', i1, i1', v1⟩ := mean _ h1 rfl
    obtain ⟨r, r1, r2, r3⟩ := covCore_pointwise h.proper h.cubeIs hab (h.tab_is (fun e => mix_shines h (hl e)) hab) (respects_condWt _ b) e0 e1 i0 i1
      (μ := fun k => mixMeanAny g L lw n ω pop b k) (fun k => respects_mixMean b k)
    obtain ⟨r', r1', r2', r3'⟩ := covCore_pointwise h'.proper h'.cubeIs hab (h'.tab_is (fun e => mix_shines h' (l2 e)) hab) (respects_condWt _ b)
      e0' e1' i0' i1' (μ := fun k => mixMeanAny g L lw n ω pop b k) (fun k => respects_mixMean b k)
    refine ⟨r, r', by rw [getCovariance_eq hab]; exact r1, by rw [getCovariance_eq hab]; exact r1', r2, r2', fun k hk k' hk' c hc hgood => ?_⟩
    rw [r3 k hk k' hk' c hc (fun _ => (v0 k hk c hc hgood).1) (fun _ => (v1 k' hk' c hc hgood).1),
      r3' k hk k' hk' c hc (fun _ => (v0 k hk c hc hgood).2) (fun _ => (v1 k' hk' c hc hgood).2)]
    simp only [unit_wtdP hs]
  refine ⟨fun q hq hb => ?_, fun j q hq hb ha => ?_, fun a a' hab q q' hq hq' => ?_, fun a a' hab ha ha' q q' hq hq' => ?_⟩
  · obtain ⟨q1, q2, -⟩ := quantity_facts hq
    obtain ⟨M, M', F, F', e, e', i, i', v⟩ := mean _ hb q1
    exact ⟨M, M', e, e', i.1, i'.1, fun c hc h0 => by rw [i.2 q q2 c hc, i'.2 q q2 c hc, (v q q2 c hc h0).1, (v q q2 c hc h0).2]⟩
  · obtain ⟨q1, q2, -⟩ := quantity_facts hq
    obtain ⟨M, M', F, F', e, e', i, i', v⟩ := cen _ hb q1 ha j
    refine ⟨M, M', e, e', i.1, i'.1, fun c hc h0 => ?_⟩
    obtain ⟨u, u1, u2⟩ := v q q2 c hc h0 (fun _ _ => ⟨hc, h0⟩)
    rw [i.2 q q2 c hc, i'.2 q q2 c hc, u1, u2]
  · obtain ⟨r, r', e, e', s1, s2, v⟩ := cov a a' hab
    exact ⟨r, r', e, e', s1, s2, fun c hc h0 => v q (varOf_mem hq) q' (varOf_mem hq') c hc h0⟩
  · obtain ⟨h0, h1⟩ := validPair_sub hab
    obtain ⟨C, C', c1, c1', c2, c2', c3⟩ := cov a a' hab
    obtain ⟨V0, V0', F0, F0', e0, e0', i0, i0', v0⟩ := cen _ h0 rfl ha 2
    obtain ⟨V1, V1', F1, F1', e1, e1', i1, i1', v1⟩ := cen _ h1 rfl ha' 2
    obtain ⟨r, r1, r2⟩ := corCore_table hab c1 (F := fun k k' c => C.get (compIdx k ++ compIdx k' ++ coords b c)) ⟨c2, fun _ _ _ _ _ _ => rfl⟩ e0 i0 e1 i1
    obtain ⟨r', r1', r2'⟩ := corCore_table hab c1' (F := fun k k' c => C'.get (compIdx k ++ compIdx k' ++ coords b c)) ⟨c2', fun _ _ _ _ _ _ => rfl⟩
      e0' i0' e1' i1'
    refine ⟨r, r', r1, r1', r2.1, r2'.1, fun c hc hgood => ?_⟩
    obtain ⟨u, u1, u2⟩ := v0 q (varOf_mem hq) c hc hgood (fun _ _ => ⟨hc, hgood⟩)
    obtain ⟨w, w1, w2⟩ := v1 q' (varOf_mem hq') c hc hgood (fun _ _ => ⟨hc, hgood⟩)
    rw [r2.2 q (varOf_mem hq) q' (varOf_mem hq') c hc, r2'.2 q (varOf_mem hq) q' (varOf_mem hq') c hc]
    beta_reduce
    rw [u1, u2, w1, w2, c3 q (varOf_mem hq) q' (varOf_mem hq') c hc hgood]

/-- Central moments of the velocity given age, position and metallicity, where all members have stars with this metallicity and with the lowest
(whose means disks and streams take as centres, C66). The members of `mx'` are those of `mx`, in the other unit. -/
theorem C96_mixture_velocity_given_all (hs : 0 < s) (h : MixOf mx g n ω pop L) (h' : MixOf mx' g n ω pop (inUnit s L))
    (hl : lw = true → ∀ i < n, (pop i).Shines g L)
    (hm : ∀ i < n, ∃ ch ch', mx.children[i]? = some ch ∧ mx'.children[i]? = some ch' ∧ InOtherUnit g L s ch ch' (pop i)) (j : ℕ) :
    SameWhere (fun c => ∀ i < n, (pop i).amount g L lw ['t','x','z'] c ≠ 0 ∧ (pop i).amount g L lw ['t','x','z'] { c with z := 0 } ≠ 0) [] []
      ((Mix.obj mx).getCentralMoment ['v','_','t','x','z'] j lw) ((Mix.obj mx').getCentralMoment ['v','_','t','x','z'] j lw) g ['t','x','z'] := by
  have l2 : lw = true → ∀ i < n, (pop i).Shines g (inUnit s L) := fun e i hi => unit_popShines hs (hl e i hi)
  have hab : ValidPair ['v'] ['t','x','z'] := by decide
  have key : ∀ i, ∃ cen : Cell → Cell, (∀ c, cen c = c ∨ cen c = { c with z := 0 }) ∧
      (∀ hi : i < mx.children.length, MemberSays mx.children[i] (pop i) g L lw ['v'] ['t','x','z'] cen True) ∧
      ∀ hi : i < mx'.children.length, MemberSays mx'.children[i] (pop i) g (inUnit s L) lw ['v'] ['t','x','z'] cen True := by
    intro i
    by_cases hi : i < n
    · obtain ⟨ch, ch', e, e', hk⟩ := hm i hi
      have e1 : ∀ hi : i < mx.children.length, mx.children[i] = ch := fun hi => by
        rw [List.getElem?_eq_getElem hi] at e; exact Option.some.inj e
      have e2 : ∀ hi : i < mx'.children.length, mx'.children[i] = ch' := fun hi => by
        rw [List.getElem?_eq_getElem hi] at e'; exact Option.some.inj e'
      cases hk with
      | plain cube cube' st st' ρ yb yb' b1 b2 eq eq' pe =>
        refine ⟨fun c => c, fun c => .inl rfl, fun hi' => ?_, fun hi' => ?_⟩
        · rw [e1 hi', eq, pe]
          exact plain_says yb b1 (fun e => pe ▸ hl e i hi) hab rfl
        · rw [e2 hi', eq', pe]
          exact plain_says yb' b2 (fun e => pe ▸ l2 e i hi) hab rfl
      | parametric p p' m yb yb' b1 b2 f1 f2 eq eq' pe =>
        refine ⟨fun c => { c with z := 0 }, fun c => .inr rfl, fun hi' => ?_, fun hi' => ?_⟩
        · rw [e1 hi', eq, pe]
          have := param_says yb b1 (fun e => pe ▸ hl e i hi) hab rfl
          simp only [and_self, if_true] at this
          exact ⟨this.mean, fun _ => this.ncm f1⟩
        · rw [e2 hi', eq', pe]
          have := param_says yb' b2 (fun e => pe ▸ l2 e i hi) hab rfl
          simp only [and_self, if_true] at this
          exact ⟨this.mean, fun _ => this.ncm f2⟩
    · refine ⟨fun c => c, fun c => .inl rfl, fun hi' => absurd (h.children ▸ hi') hi, fun hi' => absurd (h'.children ▸ hi') hi⟩
  choose cen k1 k2 k3 using key
  obtain ⟨r, r', F, F', e, e', i, i', v⟩ := mixCentral_both hs h h' hl hab rfl j cen k2 k3
  refine ⟨r, r', e, e', i.1, i'.1, fun c hc h0 => ?_⟩
  obtain ⟨u, u1, u2⟩ := v 'v' (by decide) c hc (fun i hi => (h0 i hi).1) (fun i hi => by
    rcases k1 i c with e | e
    · rw [e]; exact ⟨hc, fun i hi => (h0 i hi).1⟩
    · rw [e]; exact ⟨⟨hc.1, hc.2.1, hc.2.2.1, hc.2.2.2.1, h.proper.nz⟩, fun i hi => (h0 i hi).2⟩)
  have := i.2 'v' (by decide) c hc
  have := i'.2 'v' (by decide) c hc
  simp_all [compIdx]

/-- The datacube of a mixture: if those of its members are multiplied by `s`, so is that of the mixture. -/
theorem C96_mixture_datacube (Y Y' : ℕ → Arr Num) (sh : List ℕ) (h0 : mx.children ≠ []) (hlen : mx.children.length = mx.weights.length)
    (hlen' : mx'.children.length = mx'.weights.length) (hw : mx'.weights = mx.weights)
    (hY : ∀ (i : ℕ) (hi : i < mx.children.length), mx.children[i].ybar = some (Y i) ∧ (Y i).shape = sh)
    (hY' : ∀ (i : ℕ) (hi : i < mx'.children.length), mx'.children[i].ybar = some (Y' i) ∧ (Y' i).shape = sh)
    (hs : ∀ i < mx.children.length, ∀ j, InBox sh j → ∃ u : ℝ, (Y i).get j = .fin u ∧ (Y' i).get j = .fin (s * u)) :
    ∃ y y', mx.evaluateYbar = .ok { mx with ybar := some y } ∧ mx'.evaluateYbar = .ok { mx' with ybar := some y' } ∧ y.shape = sh ∧ y'.shape = sh ∧
      ∀ j, InBox sh j → ∃ u : ℝ, y.get j = .fin u ∧ y'.get j = .fin (s * u) := by
  have h0' : mx'.children ≠ [] := by
    intro e
    rw [e, hw, ← hlen] at hlen'
    exact h0 (List.length_eq_zero_iff.1 hlen'.symm)
  obtain ⟨y, a1, a2, a3⟩ := C30_weighted_sum mx Y sh h0 hlen hY
  obtain ⟨y', b1, b2, b3⟩ := C30_weighted_sum mx' Y' sh h0' hlen' hY'
  refine ⟨y, y', a1, b1, a2, b2, fun j hj => ?_⟩
  have hs' : ∀ i : ℕ, ∃ u : ℝ, i < mx.children.length → (Y i).get j = .fin u ∧ (Y' i).get j = .fin (s * u) := fun i => by
    by_cases hi : i < mx.children.length
    · obtain ⟨u, h⟩ := hs i hi j hj
      exact ⟨u, fun _ => h⟩
    · exact ⟨0, fun h => absurd h hi⟩
  choose u hu using hs'
  refine ⟨∑ i : Fin mx.weights.length, mx.weights[i] * u i, ?_, ?_⟩
  · rw [a3 j hj, ← Num.fin_sum]
    refine Finset.sum_congr rfl fun i _ => ?_
    rw [(hu i (by rw [hlen]; exact i.2)).1, Num.fin_mul]
  · obtain ⟨c', k', w', z'⟩ := mx'
    subst hw
    rw [b3 j hj, Finset.mul_sum, ← Num.fin_sum]
    refine Finset.sum_congr rfl fun i _ => ?_
    rw [(hu i (by rw [hlen]; exact i.2)).2, Num.fin_mul]
    congr 1
    ring

end

/-! ### Datacubes -/

theorem rfft_unit (nl n : ℕ) (x : ℕ → ℝ) (k : ℕ) : Fft.rfft nl n (fun j => s * x j) k = (s : ℂ) * Fft.rfft nl n x k := by
  unfold Fft.rfft
  rw [Finset.mul_sum]
  refine Finset.sum_congr rfl fun j _ => ?_
  split
  · push_cast; ring
  · simp

theorem irfft_unit (n : ℕ) (X : ℕ → ℂ) (k : ℕ) : Fft.irfft n (fun w => (s : ℂ) * X w) k = s * Fft.irfft n X k := by
  have := Fft.irfft_linear n X (fun _ => 0) s 0 k
  simpa using this

theorem spectraIn_rfft (S : ℕ → ℕ → ℕ → ℝ) (nl n t z w : ℕ) : Fft.rfft nl n (spectraIn s S t z) w = (s : ℂ) * Fft.rfft nl n (S t z) w :=
  rfft_unit nl n _ w

theorem timesFlux_of {r r' : Py (Arr Num)} {n nx ny : ℕ} {f f' : ℕ → ℕ → ℕ → ℝ} (h : ∃ y, r = .ok y ∧ Is3 y n nx ny (fun k x y => .fin (f k x y)))
    (h' : ∃ y, r' = .ok y ∧ Is3 y n nx ny (fun k x y => .fin (f' k x y))) (e : ∀ k x y, f' k x y = s * f k x y) : TimesFlux s r r' n nx ny := by
  obtain ⟨y, h1, h2, h3⟩ := h
  obtain ⟨y', h1', h2', h3'⟩ := h'
  exact ⟨y, y', h1, h1', h2, h2', fun k hk i hi j hj => ⟨_, h3 k hk i hi j hj, (h3' k hk i hi j hj).trans (congrArg Num.fin (e k i j))⟩⟩

/-- The datacube of a plain component is proportional to the unit, in all batch modes. -/
theorem C96_plain_datacube {cube cube' : IFUCube} {stored stored' : Arr Num} {ρ : Cell → ℝ} {interp : ℕ → (ℕ → ℂ) → ℝ → ℂ} {sp sp' : Spectra}
    {S : ℕ → ℕ → ℕ → ℝ} {n v0 : ℕ} (hI : Interp interp) (h : BaseIs cube stored g ρ L) (h' : BaseIs cube' stored' g ρ (inUnit s L)) (hn : 0 < n)
    (hS : SpectraAre sp g S n n) (hS' : SpectraAre sp' g (spectraIn s S) n n) (hdv : sp'.dv = sp.dv) (h0 : ZeroBin g.nv g.v v0)
    (hv : VelocityOk g.nv g.v sp.dv v0) (hm : 6 ≤ g.nv) : ∀ batch ∈ ["none".toList, "column".toList, "spaxel".toList],
      TimesFlux s (evaluateYbar interp (baseSelf cube stored) sp batch) (evaluateYbar interp (baseSelf cube' stored') sp' batch) n g.nx g.ny := by
  have hhalf : 4 ≤ Fft.half g.nv := by unfold Fft.half; omega
  obtain ⟨e1, e2, e3, -⟩ := (evaluateYbar_is hI.loc h hn hS h0 hv).2 hhalf
  obtain ⟨e1', e2', e3', -⟩ := (evaluateYbar_is hI.loc h' hn hS' h0 (hdv ▸ hv)).2 hhalf
  have key : ∀ k x y, ybarFT interp g (spectraIn s S) ρ n n v0 sp'.dv k x y = s * ybarFT interp g S ρ n n v0 sp.dv k x y := fun k x y => by
    simp only [ybarFT_eq, spectraIn_rfft, mul_assoc (s : ℂ), irfft_unit, hdv, ← Finset.mul_sum, mul_assoc s]
  intro batch hb
  simp only [List.mem_cons, List.not_mem_nil, or_false] at hb
  rcases hb with rfl | rfl | rfl
  · exact timesFlux_of e1 e1' key
  · exact timesFlux_of (e2 rfl) (e2' rfl) key
  · exact timesFlux_of (e3 rfl) (e3' rfl) key

/-- The datacube of a parametric component is proportional to the unit, in all batch modes. -/
theorem C96_parametric_datacube {sp sp' : Spectra} {S : ℕ → ℕ → ℕ → ℝ} {n : ℕ} (h : ParamIs p g m L) (h' : ParamIs p' g m (inUnit s L)) (hn : 0 < n)
    (hS : SpectraAre sp g S n n) (hS' : SpectraAre sp' g (spectraIn s S) n n) (hdv : sp'.dv = sp.dv) :
    ∀ batch ∈ ["none".toList, "column".toList, "spaxel".toList], TimesFlux s (p.evaluateYbar sp batch) (p'.evaluateYbar sp' batch) n g.nx g.ny := by
  obtain ⟨e1, e2, e3, -⟩ := Param.evaluateYbar_is h hn hS
  obtain ⟨e1', e2', e3', -⟩ := Param.evaluateYbar_is h' hn hS'
  have hfr : Param.freq sp' n = Param.freq sp n := by
    funext w
    unfold Param.freq
    rw [hdv]
  have hp : ∀ t z, padded n (spectraIn s S t z) = fun j => s * padded n (S t z) j := fun t z => by
    funext j
    unfold padded spectraIn
    split <;> simp
  have key : ∀ k x y, Param.ybarOf g m sp' (spectraIn s S) n n k x y = s * Param.ybarOf g m sp S n n k x y := fun k x y => by
    simp only [ybarOf_eq, hp, rfft_unit, mul_assoc (s : ℂ), irfft_unit, hfr, Finset.mul_sum]
    exact Finset.sum_congr rfl fun t _ => Finset.sum_congr rfl fun z _ => by ring
  intro batch hb
  simp only [List.mem_cons, List.not_mem_nil, or_false] at hb
  rcases hb with rfl | rfl | rfl
  · exact timesFlux_of e1 e1' key
  · exact timesFlux_of (e2 rfl) (e2' rfl) key
  · exact timesFlux_of (e3 rfl) (e3' rfl) key

/-! ### Light weights -/

/-- Where the factor comes from: if the spectra of the library are multiplied by `s`, the ages and metallicities of the bins stay, and all light
weights are multiplied by `s`. -/
theorem C96_library {d d' : MilesData} {n nt nz : ℕ} {t z : ℕ → ℝ} {S : ℕ → ℕ → ℕ → ℝ} (h : DataAre d n nt nz t z S)
    (h' : DataAre d' n nt nz t z (fun k i j => s * S k i j))
    (hn : 0 < n) (hnt : 2 ≤ nt) (hnz : 2 ≤ nz) (hsize : nz * nt ≤ 100000) (ht : GoodValues nt t) (hz : GoodValues nz z)
    {ageRebin zRebin : ℕ} (ha : 0 < ageRebin) (hb : 0 < zRebin) :
    ∃ G G' P P' nt' nz' t' z', SspGrid.init d ageRebin zRebin = .ok G ∧ SspGrid.init d' ageRebin zRebin = .ok G' ∧ G.toSSPs = .ok P ∧ G'.toSSPs = .ok P' ∧
      SspsAre P nt' nz' t' z' ∧ SspsAre P' nt' nz' t' z' ∧ P.lightWeights.shape = [nt', nz'] ∧ P'.lightWeights.shape = [nt', nz'] ∧
      ∀ j < nt', ∀ i < nz', ∃ u : ℝ, P.lightWeights.get [j, i] = .fin u ∧ P'.lightWeights.get [j, i] = .fin (s * u) := by
  obtain ⟨G, g1, g2, -⟩ := sspInit_is h hn hnt hnz hsize ht hz ha hb
  obtain ⟨G', g1', g2', -⟩ := sspInit_is h' hn hnt hnz hsize ht hz ha hb
  obtain ⟨A, hA, hA1, hA2⟩ := lightWeights_is g2
  obtain ⟨B, hB, hB1, hB2⟩ := lightWeights_is g2'
  refine ⟨G, G', ⟨G.zEdges, G.tEdges, G.zCents, G.tCents, G.deltaT, G.deltaZ, A⟩, ⟨G'.zEdges, G'.tEdges, G'.zCents, G'.tCents, G'.deltaT, G'.deltaZ, B⟩,
    _, _, _, _, g1, g1', ?_, ?_, ⟨g2.tEdges, g2.zEdges, g2.tCents, g2.zCents, g2.deltaT, g2.deltaZ⟩,
    ⟨g2'.tEdges, g2'.zEdges, g2'.tCents, g2'.zCents, g2'.deltaT, g2'.deltaZ⟩, hA1, hB1, fun j hj i hi =>
      ⟨∑ k ∈ Finset.range n, groupMean nz nt zRebin ageRebin (edgeOf nz z) (edgeOf nt t) S k i j, hA2 j hj i hi, (hB2 j hj i hi).trans (congrArg Num.fin ?_)⟩⟩
  · simp only [SspGrid.toSSPs, hA, Py.ok_bind]
  · simp only [SspGrid.toSSPs, hB, Py.ok_bind]
  · rw [Finset.mul_sum]
    refine Finset.sum_congr rfl fun k _ => ?_
    unfold groupMean
    rw [← mul_div_assoc, Finset.mul_sum]
    simp only [Finset.mul_sum, mul_assoc]

/-! ### The hypotheses are met -/

/-- A cube whose SSPs have light weights in the other unit. -/
def IFUCube.inUnit (s : ℝ) (c : IFUCube) : IFUCube :=
  { c with ssps := { c.ssps with lightWeights := ⟨c.ssps.lightWeights.shape, fun i => .fin s * c.ssps.lightWeights.get i⟩ } }

theorem IFUCube.inUnit_light {cube : IFUCube} (h : IsArr g ['t','z'] cube.ssps.lightWeights (fun c => .fin (L c.t c.z))) :
    IsArr g ['t','z'] (cube.inUnit s).ssps.lightWeights (fun c => .fin (PKM.inUnit s L c.t c.z)) :=
  ⟨h.1, fun c hc => by
    show Num.fin s * _ = _
    rw [h.2 c hc, Num.fin_mul]
    rfl⟩

theorem BaseIs.inUnit {cube : IFUCube} {stored : Arr Num} {ρ : Cell → ℝ} (hs : 0 < s) (h : BaseIs cube stored g ρ L) :
    BaseIs (cube.inUnit s) stored g ρ (PKM.inUnit s L) :=
  ⟨h.proper, ⟨h.cubeIs.tEdges, h.cubeIs.zEdges, h.cubeIs.tCents, h.cubeIs.zCents, h.cubeIs.deltaT, h.cubeIs.deltaZ, h.cubeIs.vEdg, h.cubeIs.x, h.cubeIs.y,
    h.cubeIs.dx, h.cubeIs.dy, h.cubeIs.nx, h.cubeIs.ny⟩, h.stored, h.nonneg, IFUCube.inUnit_light h.light, fun t z => mul_nonneg hs.le (h.lightNonneg t z)⟩

theorem ParamIs.inUnit (hs : 0 < s) (h : ParamIs p g m L) : ParamIs { p with cube := p.cube.inUnit s } g m (PKM.inUnit s L) :=
  ⟨h.proper, ⟨h.cubeIs.tEdges, h.cubeIs.zEdges, h.cubeIs.tCents, h.cubeIs.zCents, h.cubeIs.deltaT, h.cubeIs.deltaZ, h.cubeIs.vEdg, h.cubeIs.x, h.cubeIs.y,
    h.cubeIs.dx, h.cubeIs.dy, h.cubeIs.nx, h.cubeIs.ny⟩, h.norm, h.logPt, h.logPxt, h.logPztx, h.muV, h.sigV, IFUCube.inUnit_light h.light,
    fun t z => mul_nonneg hs.le (h.lightNonneg t z)⟩

theorem halves_exist (h : ParamIs p g m L) (hf : p.f2 = 1) : ∃ mx, MixOf mx g 2 (fun _ => 1 / 2) (fun _ => m.pop g) L ∧
    ∀ (i : ℕ) (hi : i < mx.children.length), IsMember1 g L mx.children[i] (m.pop g) := by
  refine ⟨⟨p.cube, [Component.child p.self none, Component.child p.self none], [1 / 2, 1 / 2], none⟩, ?_, fun i hi => ?_⟩
  · refine ⟨by norm_num, h.cubeIs, h.light, rfl, by simp [List.range_succ], fun i hi => by norm_num, fun i hi => ?_⟩
    have : i < 2 := hi
    interval_cases i <;> exact .parametric p _ none h rfl rfl
  · have : i < 2 := hi
    interval_cases i <;> exact .parametric p _ none h hf rfl rfl

/-- A plain component, with light in units a thousand times smaller: the light-weighted mean age in each pixel. -/
example : ∃ cube cube' : IFUCube, BaseIs cube demoStored demoGrid demoRho demoL ∧ BaseIs cube' demoStored demoGrid demoRho (inUnit 1000 demoL) ∧
    Same (getMean (baseSelf cube demoStored) (distStr ['t'] ['x']) true) (getMean (baseSelf cube' demoStored) (distStr ['t'] ['x']) true) demoGrid ['x'] := by
  obtain ⟨cube, -, -, h, -, hl, -⟩ := demoBase
  have h' := h.inUnit (s := 1000) (by norm_num)
  obtain ⟨r, r', e1, e2, e3, e4, e5⟩ := ((C96_plain_moments (lw := true) (by norm_num) h h' fun _ => hl).1 ['x']).mean 't' (by decide) (by decide)
  exact ⟨cube, _, h, h', r, r', e1, e2, e3, e4, e5⟩

/-- The disk of C49 after all its setters, and a mixture of two of them. -/
example : ∃ p p' m, ParamIs p demoGrid m demoL ∧ ParamIs p' demoGrid m (inUnit 1000 demoL) ∧ p.f2 = 1 ∧ p'.f2 = 1 ∧ Shines demoGrid m demoL ∧
    ∃ c, demoGrid.Has c ∧ (m.pop demoGrid).amount demoGrid demoL true ['t','x'] c ≠ 0 := by
  obtain ⟨p, m, h, hS, -, hf, t0, ht, hpos⟩ := demoDisk_pos 1
  have hc : demoGrid.Has ⟨t0, 0, 0, 0, 0⟩ := by
    refine ⟨ht, ?_, ?_, ?_, ?_⟩ <;> norm_num [demoGrid, cubeGrid]
  refine ⟨p, _, m, h, h.inUnit (by norm_num), hf, hf, hS, _, hc, ?_⟩
  rw [Pop.amount_eq h.proper h.pop_ok]
  refine (sumCells_pos_of (c := ⟨t0, 0, 0, 0, 0⟩) (fun d hd => ?_) hc ?_).ne'
  · beta_reduce
    split
    · exact mul_nonneg (wt_nonneg (fun t z => (demoL_pos t z).le) d) (h.pop_ok.cells_nonneg _ hd)
    · exact le_rfl
  rw [if_pos rfl]
  refine mul_pos (by simp only [Pop.wt, if_true]; exact demoL_pos _ _) ?_
  rw [ingr_cells]
  show 0 < m.probTXZ demoGrid _ / _
  have := hpos ⟨t0, 0, 0, 0, 0⟩ hc rfl
  have hv : (0 : ℝ) < demoGrid.nv := by norm_num [demoGrid, cubeGrid]
  positivity

example : ∃ (mx mx' : Mix) (q : Pop), MixOf mx demoGrid 2 (fun _ => 1 / 2) (fun _ => q) demoL ∧
    MixOf mx' demoGrid 2 (fun _ => 1 / 2) (fun _ => q) (inUnit 1000 demoL) ∧ q.Shines demoGrid demoL ∧
    (∀ (i : ℕ) (hi : i < mx.children.length), IsMember1 demoGrid demoL mx.children[i] q) ∧
    ∀ (i : ℕ) (hi : i < mx'.children.length), IsMember1 demoGrid (inUnit 1000 demoL) mx'.children[i] q := by
  obtain ⟨mx, p, -, h, hf, h1, h2⟩ := flatMix_exists (fun _ => 90)
  have h' : ParamIs { p with cube := p.cube.inUnit 1000 } demoGrid (flatIngr fun _ => 90) (inUnit 1000 demoL) := h.inUnit (by norm_num)
  obtain ⟨mx', h1', h2'⟩ := halves_exist h' hf
  exact ⟨mx, mx', _, h1, h1', flat_shines _, h2, h2'⟩

/-- Members in two units, with stars in all cells. -/
example : ∃ ch ch' q, InOtherUnit demoGrid demoL 1000 ch ch' q ∧ ∀ c lw, demoGrid.Has c → 0 < q.amount demoGrid demoL lw ['t','x','z'] c := by
  obtain ⟨p, h, hf⟩ := flatDisk_exists (fun _ => 90)
  refine ⟨_, _, _, .parametric p { p with cube := p.cube.inUnit 1000 } _ none none h (h.inUnit (by norm_num)) hf hf rfl rfl rfl, fun c lw hc => ?_⟩
  exact ingr_amount_pos h demoL_pos hc (by rw [flat_probTXZ _ hc]; norm_num) rfl

/-- Datacubes. -/
example : ∃ (cube cube' : IFUCube) (sp sp' : Spectra) (y y' : Arr Num),
    evaluateYbar (fun m Y x => Y (min (m - 1) ⌊x * (m - 1 : ℝ) + 1 / 2⌋₊)) (baseSelf cube (uniformStored 2 3 7)) sp "column".toList = .ok y ∧
    evaluateYbar (fun m Y x => Y (min (m - 1) ⌊x * (m - 1 : ℝ) + 1 / 2⌋₊)) (baseSelf cube' (uniformStored 2 3 7)) sp' "column".toList = .ok y' ∧
    ∃ u : ℝ, y.get [3, 1, 2] = .fin u ∧ y'.get [3, 1, 2] = .fin (1000 * u) := by
  obtain ⟨cube, sp, -, h, hS, hdv, h5, h6, -⟩ := ybar_demo
  obtain ⟨sp', -, hS', hdv'⟩ := fourier_is (g := uniformGrid 2 3 7 (-70, 70)) (S := spectraIn 1000 demoSpec) (nl := 7) 20
    (Xw := ⟨[7, 6], fun i => spectraIn 1000 demoSpec (i.getD 1 0 % 2) (i.getD 1 0 / 2) (i.getD 0 0)⟩) rfl (by
      intro k _ t ht z _
      have ht : t < 2 := ht
      have e1 : (z * 2 + t) % 2 = t := by omega
      have e2 : (z * 2 + t) / 2 = z := by omega
      show spectraIn 1000 demoSpec ((z * 2 + t) % 2) ((z * 2 + t) / 2) k = _
      rw [e1, e2])
  obtain ⟨y, y', e1, e2, -, -, e3⟩ := C96_plain_datacube interp_exists h (h.inUnit (s := 1000) (by norm_num)) (by norm_num) hS hS' (hdv'.trans hdv.symm) h5 h6
    (by show 6 ≤ 7; norm_num) "column".toList (by decide)
  exact ⟨cube, _, sp, sp', y, y', e1, e2, e3 3 (by norm_num) 1 (by show 1 < 2; norm_num) 2 (by show 2 < 3; norm_num)⟩

theorem anySpectra_exist (S : ℕ → ℕ → ℕ → ℝ) (n : ℕ) (dv : ℝ) : ∃ sp, SpectraAre sp demoGrid S n n ∧ sp.dv = dv := by
  obtain ⟨sp, -, h1, h2⟩ := fourier_is (g := demoGrid) (S := S) (nl := n) dv
    (Xw := ⟨[n, demoGrid.nz * demoGrid.nt], fun i => S (i.getD 1 0 % demoGrid.nt) (i.getD 1 0 / demoGrid.nt) (i.getD 0 0)⟩) rfl (by
      intro k hk t ht z hz
      simp only [List.getD_cons_succ, List.getD_cons_zero]
      have e1 : (z * demoGrid.nt + t) % demoGrid.nt = t := by
        rw [Nat.add_comm, Nat.add_mul_mod_self_right, Nat.mod_eq_of_lt ht]
      have e2 : (z * demoGrid.nt + t) / demoGrid.nt = z := by
        rw [Nat.add_comm, Nat.add_mul_div_right _ _ (by omega), Nat.div_eq_of_lt ht, Nat.zero_add]
      rw [e1, e2])
  exact ⟨sp, h1, h2⟩

/-- A disk and a mixture of two equal disks, with spectra of 8 pixels. -/
example : ∃ (p p' : Param) (sp sp' : Spectra) (mx mx' : Mix) (y y' : Arr Num), p.evaluateYbar sp "none".toList = .ok y ∧
    p'.evaluateYbar sp' "none".toList = .ok y' ∧
    mx.children = [Component.child p.self (some y), Component.child p.self (some y)] ∧
    mx'.children = [Component.child p'.self (some y'), Component.child p'.self (some y')] ∧
    ∃ Y Y', mx.evaluateYbar = .ok { mx with ybar := some Y } ∧ mx'.evaluateYbar = .ok { mx' with ybar := some Y' } ∧
      ∃ u : ℝ, Y.get [3, 1, 2] = .fin u ∧ Y'.get [3, 1, 2] = .fin (1000 * u) := by
  obtain ⟨p, m, h, -⟩ := demoDisk_exists 1
  obtain ⟨sp, h1, h2⟩ := anySpectra_exist (fun t z k => t + 2 * z + k) 8 100
  obtain ⟨sp', h1', h2'⟩ := anySpectra_exist (spectraIn 1000 fun t z k => t + 2 * z + k) 8 100
  obtain ⟨y, y', e1, e2, e3, e4, e5⟩ := C96_parametric_datacube h (h.inUnit (s := 1000) (by norm_num)) (by norm_num) h1 h1' (h2'.trans h2.symm)
    "none".toList (by decide)
  obtain ⟨Y, Y', f1, f2, -, -, f3⟩ := C96_mixture_datacube (s := 1000)
    (mx := ⟨p.cube, [Component.child p.self (some y), Component.child p.self (some y)], [1 / 4, 3 / 4], none⟩)
    (mx' := ⟨p.cube, [Component.child (Param.self { p with cube := p.cube.inUnit 1000 }) (some y'),
      Component.child (Param.self { p with cube := p.cube.inUnit 1000 }) (some y')], [1 / 4, 3 / 4], none⟩)
    (fun _ => y) (fun _ => y') [8, demoGrid.nx, demoGrid.ny] (by simp) rfl rfl rfl
    (fun i hi => by
      have : i < 2 := hi
      interval_cases i <;> exact ⟨rfl, e3⟩)
    (fun i hi => by
      have : i < 2 := hi
      interval_cases i <;> exact ⟨rfl, e4⟩)
    (fun i _ j hj => by
      match j, hj with
      | [k, a, b], hj => exact e5 k hj.1 a hj.2.1 b hj.2.2.1)
  exact ⟨p, _, sp, sp', _, _, y, y', e1, e2, rfl, rfl, Y, Y', f1, f2, f3 [3, 1, 2] ⟨by norm_num, by norm_num [demoGrid, cubeGrid],
    by norm_num [demoGrid, cubeGrid], trivial⟩⟩

/-- The library of C54 and the same with other units. -/
example : ∃ d d' S, DataAre d 2 4 3 (fun j => j + 1) (fun i => i - 2) S ∧ DataAre d' 2 4 3 (fun j => j + 1) (fun i => i - 2) (fun k i j => 1000 * S k i j) ∧
    GoodValues 4 (fun j => (j : ℝ) + 1) ∧ GoodValues 3 (fun i => (i : ℝ) - 2) := by
  refine ⟨demoData, { demoData with X := ⟨[2, 12], fun i => .fin (1000 * (1 + i.getD 0 0 + 10 * i.getD 1 0))⟩ }, _, demoData_are,
    ⟨demoData_are.t, demoData_are.z, rfl, rfl, fun k _ i _ j _ => ?_⟩, demo_t, demo_z⟩
  simp

end PKM
