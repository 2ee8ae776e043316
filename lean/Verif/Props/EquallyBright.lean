import Verif.Props.GivenOnly
import Verif.Props.AgeMetal

/-!
# C98: among equally bright stars, weighting by light is weighting by mass

Where all stars that meet a condition are equally bright, all answers given that condition are the same by light and by mass. Stars of one age and
metallicity are equally bright in every library.
-/

open scoped Classical

noncomputable section

namespace PKM
open Np Component

/-! ### Specification -/

/-- Stars that have the values of `b` at `c` all emit the same light `l` per mass. -/
structure EquallyBright (g : Grid) (L : ℕ → ℕ → ℝ) (l : ℝ) (b : PyStr) (c : Cell) : Prop where
  pos : 0 < l
  same : ∀ d, g.Has d → coords b d = coords b c → L d.t d.z = l

/-- All light comes from stars in the velocity range of the grid. -/
def AllInRange (g : Grid) (L : ℕ → ℕ → ℝ) (q : Pop) : Prop := q.lightOf g L ['v'] = q.lightOf g L ['t','x','z']

/-- Means, central moments, covariances and correlations given `b` are the same by light and by mass, where `good`. `ask`: the variables of which the
central moments are asked; `pairs`: those of which covariances are. -/
structure MomentsAgree (o : Obj) (g : Grid) (b : PyStr) (ask pairs : PyStr → Prop) (good : Cell → Prop) : Prop where
  mean : ∀ q ∈ ['t','v','x','y','z'], ValidPair (varOf q) b →
    SameWhere good (compShape (varOf q)) (compIdx q) (o.getMean (distStr (varOf q) b) true) (o.getMean (distStr (varOf q) b) false) g b
  central : ∀ j, ∀ q ∈ ['t','v','x','y','z'], ValidPair (varOf q) b → ask (varOf q) →
    SameWhere good (compShape (varOf q)) (compIdx q) (o.getCentralMoment (distStr (varOf q) b) j true) (o.getCentralMoment (distStr (varOf q) b) j false) g b
  covariance : ∀ a a', ValidPair [a, a'] b → pairs [a, a'] → ∀ q q', varOf q = [a] → varOf q' = [a'] →
    SameWhere good (compShape [a] ++ compShape [a']) (compIdx q ++ compIdx q') (o.getCovariance (distStr [a, a'] b) true)
      (o.getCovariance (distStr [a, a'] b) false) g b
  correlation : ∀ a a', ValidPair [a, a'] b → pairs [a, a'] → ask [a] → ask [a'] → ∀ q q', varOf q = [a] → varOf q' = [a'] →
    SameWhere good (compShape [a] ++ compShape [a']) (compIdx q ++ compIdx q') (o.getCorrelation (distStr [a, a'] b) true)
      (o.getCorrelation (distStr [a, a'] b) false) g b

/-- Distributions of the variables `ask` given `b` are the same by light and by mass, where `good`. -/
def DistributionsAgree (o : Obj) (g : Grid) (b : PyStr) (ask : PyStr → Prop) (good : Cell → Prop) : Prop :=
  ∀ density a, (a, b) ∈ conditionals → ask a →
    SameWhere good [] [] (o.getP (condStr a b) density true) (o.getP (condStr a b) density false) g (condStr a b)

/-- So are their L-moments, if the distribution has no nan. -/
def LMomentsAgree (o : Obj) (g : Grid) (b : PyStr) (ask : PyStr → Prop) (good : Cell → Prop) : Prop :=
  ∀ k ∈ ['t','v','z'], ([k], b) ∈ conditionals → ask [k] → ∀ j : ℕ, 1 ≤ j → ∃ A, o.getP (condStr [k] b) false true = .ok A ∧
    SameWhere (fun c => good c ∧ ∀ i < g.bins k, ∃ u : ℝ, A.get (i :: coords b c) = .fin u) [] [] (o.getLMoment (condStr [k] b) j true)
      (o.getLMoment (condStr [k] b) j false) g b

/-- Marginal distributions are the same by light and by mass. -/
def MarginalsAgree (o : Obj) (g : Grid) (ask : PyStr → Prop) : Prop :=
  ∀ density, ∀ w ∈ marginals, ask w → Same (o.getP w density true) (o.getP w density false) g w

variable {g : Grid} {L : ℕ → ℕ → ℝ} {l : ℝ} {p : Param} {m : Ingredients} {o : Obj} {q : Pop} {b : PyStr} {c : Cell}

/-! ### Lemmas: sums over equally bright stars -/

namespace EquallyBright

theorem move (h : EquallyBright g L l b c) {d : Cell} (e : coords b d = coords b c) : EquallyBright g L l b d :=
  ⟨h.pos, fun d' hd e' => h.same d' hd (e'.trans e)⟩

theorem sumJ (h : EquallyBright g L l b c) {w : PyStr} (hw : ∀ d, coords w d = coords w c → coords b d = coords b c) (f : Cell → ℝ) :
    g.sumCells (fun d => if coords w d = coords w c then Pop.wt L true d * f d else 0) =
      l * g.sumCells (fun d => if coords w d = coords w c then Pop.wt L false d * f d else 0) := by
  rw [← sumCells_unit]
  refine sumCells_onGrid fun d hd => ?_
  split
  · next e => simp [Pop.wt, h.same d hd (hw d e)]
  · simp

theorem sumV (h : EquallyBright g L l b c) (hg : g.Proper) {w : PyStr} (hw : ∀ d, coords w d = coords w c → coords b d = coords b c) (f : Cell → ℝ) :
    Ingredients.sumTXZ g (fun d => if coords w d = coords w c then Pop.wt L true d * f d else 0) =
      l * Ingredients.sumTXZ g (fun d => if coords w d = coords w c then Pop.wt L false d * f d else 0) := by
  rw [← sumTXZ_unit]
  refine sumTXZ_has hg fun d hd => ?_
  split
  · next e => simp [Pop.wt, h.same d hd (hw d e)]
  · simp

theorem amount (h : EquallyBright g L l b c) (hg : g.Proper) {w : PyStr} (hw : ∀ d, coords w d = coords w c → coords b d = coords b c) :
    q.amount g L true w c = l * q.amount g L false w c := by
  unfold Pop.amount
  split
  · exact h.sumJ hw _
  · exact h.sumV hg hw _

theorem amount_b (h : EquallyBright g L l b c) (hg : g.Proper) : q.amount g L true b c = l * q.amount g L false b c :=
  h.amount hg fun _ e => e

theorem expect (h : EquallyBright g L l b c) (hg : g.Proper) (k : Char) (φ : ℝ → ℝ) : q.expect g L true b k φ c = q.expect g L false b k φ c := by
  unfold Pop.expect
  rw [h.amount_b hg, h.sumV hg fun _ e => e, h.sumV hg fun _ e => e, h.sumJ fun _ e => e, ← mul_ite, ← mul_ite, mul_div_mul_left _ _ h.pos.ne']

theorem mean (h : EquallyBright g L l b c) (hg : g.Proper) (k : Char) : q.mean g L true b k c = q.mean g L false b k c := h.expect hg k _

theorem central (h : EquallyBright g L l b c) (hg : g.Proper) (k : Char) (j : ℕ) : q.central g L true b k j c = q.central g L false b k j c := by
  unfold Pop.central
  rw [h.mean hg, h.expect hg]

theorem expectOf (h : EquallyBright g L l b c) (hg : g.Proper) (f : Cell → ℝ) : q.expectOf g L true b f c = q.expectOf g L false b f c := by
  unfold Pop.expectOf
  rw [h.amount_b hg, h.sumV hg fun _ e => e, h.sumJ fun _ e => e, ← mul_ite, mul_div_mul_left _ _ h.pos.ne']

theorem cov (h : EquallyBright g L l b c) (hg : g.Proper) (k k' : Char) : q.cov g L true b k k' c = q.cov g L false b k k' c := by
  unfold Pop.cov
  rw [h.mean hg, h.mean hg, h.expectOf hg]

/-- Ratios of marginals. -/
theorem ratio (h : EquallyBright g L l b c) (hq : q.Ok g) (hg : g.Proper) (hL : ∀ t z, 0 ≤ L t z) (hs : q.Shines g L) {w : PyStr}
    (hv : 'v' ∈ b → 'v' ∈ w) (hf : ('v' ∈ w → 'v' ∈ b) ∨ AllInRange g L q) (A : ℝ) :
    l * A / q.lightOf g L w / q.marginal g L true b c = A / q.marginal g L false b c := by
  have n := fun w => hq.light_ne hg hL hs w
  have hw : q.lightOf g L w = q.lightOf g L b := by
    by_cases e : 'v' ∈ w
    · by_cases e' : 'v' ∈ b
      · rw [lightOf_velocity e, lightOf_velocity e']
      · rw [lightOf_velocity e, lightOf_other e']
        exact hf.resolve_left fun k => e' (k e)
    · rw [lightOf_other e, lightOf_other fun k => e (hv k)]
  unfold Pop.marginal
  simp only [if_true, Bool.false_eq_true, if_false, div_one]
  rw [h.amount_b hg, hw, div_div_div_cancel_right₀ (n b), mul_div_mul_left _ _ h.pos.ne']

theorem marginal_zero (h : EquallyBright g L l b c) (hq : q.Ok g) (hg : g.Proper) (hL : ∀ t z, 0 ≤ L t z) (hs : q.Shines g L) :
    q.marginal g L true b c = 0 ↔ q.marginal g L false b c = 0 := by
  unfold Pop.marginal
  simp [h.amount_b hg, div_eq_zero_iff, hq.light_ne hg hL hs b, h.pos.ne']

theorem cond (h : EquallyBright g L l b c) (hq : q.Ok g) (hg : g.Proper) (hL : ∀ t z, 0 ≤ L t z) (hs : q.Shines g L) {a : PyStr}
    (hab : (a, b) ∈ conditionals) (hf : 'v' ∉ a ∨ AllInRange g L q) : q.cond g L true a b c = q.cond g L false a b c := by
  have hvu : ∀ p ∈ conditionals, 'v' ∉ p.1 → 'v' ∈ unionStr p.1 p.2 → 'v' ∈ p.2 := by decide +kernel
  unfold Pop.cond
  refine if_congr (h.marginal_zero hq hg hL hs) rfl (congrArg Num.fin ?_)
  have e := h.amount (q := q) hg (w := unionStr a b) (fun d => coords_union_eq (a, b) hab c d)
  have e1 : q.marginal g L true (unionStr a b) c = l * q.amount g L false (unionStr a b) c / q.lightOf g L (unionStr a b) := by
    rw [Pop.marginal, e, if_pos rfl]
  have e2 : q.marginal g L false (unionStr a b) c = q.amount g L false (unionStr a b) c := by
    rw [Pop.marginal, if_neg (by decide), div_one]
  rw [e1, e2, h.ratio hq hg hL hs (union_sub _ hab 'v') (hf.imp_left (hvu _ hab))]

theorem binCov (h : EquallyBright g L l b c) (hq : q.Ok g) (hg : g.Proper) (hL : ∀ t z, 0 ≤ L t z) (hs : q.Shines g L) {k : Char} (hb : 'v' ∉ b)
    (hf : AllInRange g L q) : q.binCov g L true b k c = q.binCov g L false b k c := by
  unfold Pop.binCov
  rw [h.mean hg, h.mean hg, h.sumJ fun _ e => e, if_pos rfl, h.ratio hq hg hL hs (fun k => absurd k hb) (.inr hf), if_neg (by decide), div_one]

theorem givenCov (h : EquallyBright g L l b c) (hq : q.Ok g) (hg : g.Proper) (hL : ∀ t z, 0 ≤ L t z) (hs : q.Shines g L) {k k' : Char}
    (hb : k = 'v' ∨ k' = 'v' → 'v' ∉ b) (hf : (k ≠ 'v' ∧ k' ≠ 'v') ∨ AllInRange g L q) :
    q.givenCov g L true b k k' c = q.givenCov g L false b k k' c := by
  unfold Pop.givenCov
  split
  · next e => exact h.binCov hq hg hL hs (hb (.inl e)) (hf.resolve_left fun k => k.1 e)
  · split
    · next e' => exact h.binCov hq hg hL hs (hb (.inr e')) (hf.resolve_left fun k => k.2 e')
    · exact h.cov hg _ _

end EquallyBright

/-! ### Any object -/

theorem popAt_bright {ask ask' : PyStr → Prop} {good good' : Cell → Prop} (h : PopAt o q g L true b ask good) (h' : PopAt o q g L false b ask' good') :
    MomentsAgree o g b (fun a => ask a ∧ ask' a) (fun a => 'v' ∉ a ∨ AllInRange g L q)
      (fun c => good c ∧ good' c ∧ ∃ l, EquallyBright g L l b c) := by
  have hg := h.proper
  have kv : ∀ {a k : Char}, ValidPair [a] b → k ∈ PyStr.replaceX [a] → k = 'v' → 'v' ∉ b := fun hv hk e => by
    obtain rfl := (mem_replaceX hk).1 e
    exact noV_of_valid hv
  have mem : ∀ {k a : Char}, varOf k = [a] → k ∈ PyStr.replaceX [a] := fun {k a} e => varOf_mem e
  have cv : ∀ a a', ValidPair [a, a'] b → 'v' ∉ [a, a'] ∨ AllInRange g L q → ∀ k ∈ PyStr.replaceX [a], ∀ k' ∈ PyStr.replaceX [a'],
      ∀ c, (∃ l, EquallyBright g L l b c) → q.givenCov g L true b k k' c = q.givenCov g L false b k k' c := by
    rintro a a' hab hp k hk k' hk' c ⟨l, hE⟩
    obtain ⟨v0, v1⟩ := validPair_sub hab
    refine hE.givenCov h.ok hg h.lightNonneg (h.light rfl) ?_ (hp.imp_left fun e => ?_)
    · rintro (e | e)
      · exact kv v0 hk e
      · exact kv v1 hk' e
    · simp only [List.mem_cons, List.not_mem_nil, or_false, not_or] at e
      exact ⟨fun k => e.1 ((mem_replaceX hk).1 k).symm, fun k => e.2 ((mem_replaceX hk').1 k).symm⟩
  refine ⟨fun k hk hb => ?_, fun j k hk hb ha => ?_, fun a a' hab hp k k' e e' => ?_, fun a a' hab hp ha ha' k k' e e' => ?_⟩
  · obtain ⟨h1, h2, -⟩ := quantity_facts hk
    obtain ⟨M, F, e, i, v⟩ := h.mean _ hb h1
    obtain ⟨M', F', e', i', v'⟩ := h'.mean _ hb h1
    refine ⟨M, M', e, e', i.1, i'.1, fun c hc ⟨g1, g2, l, hE⟩ => ?_⟩
    rw [i.2 k h2 c hc, i'.2 k h2 c hc, v k h2 c hc g1, v' k h2 c hc g2, hE.mean hg]
  · obtain ⟨h1, h2, -⟩ := quantity_facts hk
    obtain ⟨M, F, e, i, v⟩ := h.central _ hb h1 ha.1 j
    obtain ⟨M', F', e', i', v'⟩ := h'.central _ hb h1 ha.2 j
    refine ⟨M, M', e, e', i.1, i'.1, fun c hc ⟨g1, g2, l, hE⟩ => ?_⟩
    rw [i.2 k h2 c hc, i'.2 k h2 c hc, v k h2 c hc g1, v' k h2 c hc g2, hE.central hg]
  · obtain ⟨r, r1, r2, r3⟩ := h.covariance hab
    obtain ⟨r', r1', r2', r3'⟩ := h'.covariance hab
    refine ⟨r, r', r1, r1', r2, r2', fun c hc ⟨g1, g2, hE⟩ => ?_⟩
    rw [r3 k (mem e) k' (mem e') c hc g1, r3' k (mem e) k' (mem e') c hc g2, cv a a' hab hp k (mem e) k' (mem e') c hE]
  · obtain ⟨r, r1, r2, r3⟩ := h.correlation hab ha.1 ha'.1
    obtain ⟨r', r1', r2', r3'⟩ := h'.correlation hab ha.2 ha'.2
    refine ⟨r, r', r1, r1', r2, r2', fun c hc ⟨g1, g2, l, hE⟩ => ?_⟩
    rw [r3 k (mem e) k' (mem e') c hc g1, r3' k (mem e) k' (mem e') c hc g2, cv a a' hab hp k (mem e) k' (mem e') c ⟨l, hE⟩]
    unfold Pop.variance
    rw [hE.central hg, hE.central hg]

theorem MomentsAgree.weaken {ask ask' pairs pairs' : PyStr → Prop} {good good' : Cell → Prop} (h : MomentsAgree o g b ask pairs good)
    (ha : ∀ a, ask' a → ask a) (hp : ∀ a, pairs' a → pairs a) (hg : ∀ c, good' c → good c) : MomentsAgree o g b ask' pairs' good' :=
  ⟨fun k hk hb => (h.mean k hk hb).weaken hg, fun j k hk hb e => (h.central j k hk hb (ha _ e)).weaken hg,
    fun a a' hab e k k' e1 e2 => (h.covariance a a' hab (hp _ e) k k' e1 e2).weaken hg,
    fun a a' hab e i i' k k' e1 e2 => (h.correlation a a' hab (hp _ e) (ha _ i) (ha _ i') k k' e1 e2).weaken hg⟩

theorem lmoments_bright {ask : PyStr → Prop} {good : Cell → Prop} (hgood : ∀ c d, coords b d = coords b c → good c → good d)
    (hD : DistributionsAgree o g b ask good)
    (h : ∀ lw, ∀ k ∈ ['t','v','z'], ValidPair [k] b → ∀ j : ℕ, 1 ≤ j → ∃ A r, o.getP (distStr [k] b) false lw = .ok A ∧
      o.getLMoment (distStr [k] b) j lw = .ok r ∧ r.shape = g.shapeOf b ∧ ∀ c, g.Has c → ∀ π : ℕ → ℝ,
        (∀ i < g.bins k, A.get (i :: coords b c) = .fin (π i)) → r.get (coords b c) = .fin (lmoment (g.bins k) (g.edge k) π j)) :
    LMomentsAgree o g b ask good := by
  intro k hk hab ha j hj
  have hb : ValidPair [k] b := .inr hab
  have ne : b ≠ [] := (by decide : ∀ vw ∈ conditionals, vw.2 ≠ []) _ hab
  obtain ⟨A, r, a1, a2, a3, a4⟩ := h true k hk hb j hj
  obtain ⟨A', r', b1, b2, b3, b4⟩ := h false k hk hb j hj
  rw [distStr, if_neg ne] at a1 a2 b1 b2
  obtain ⟨x, x', h1, h2, -, -, h3⟩ := hD false _ hab ha
  obtain rfl : _ = A := Except.ok.inj (h1.symm.trans a1)
  obtain rfl : _ = A' := Except.ok.inj (h2.symm.trans b1)
  refine ⟨x, h1, r, r', a2, b2, a3, b3, fun c hc ⟨hgc, hA⟩ => ?_⟩
  choose! π hπ using hA
  rw [List.nil_append, a4 c hc π hπ, b4 c hc π fun i hi => ?_]
  obtain ⟨d, hd, d1, d2⟩ := cell_at hb hk hc hi
  have := h3 d hd (hgood c d d2 hgc)
  rw [List.nil_append, coords_condStr, d1, d2, List.singleton_append] at this
  rw [← this, hπ i hi]

/-- Equally bright stars everywhere, of total mass 1. -/
theorem marginal_bright (hq : q.Ok g) (hg : g.Proper) (hL : ∀ t z, 0 ≤ L t z) (hs : q.Shines g L) {c : Cell} (hE : EquallyBright g L l [] c)
    (h1 : q.amount g L false [] c = 1) {w : PyStr} (hf : 'v' ∉ w ∨ AllInRange g L q) : q.marginal g L true w c = q.marginal g L false w c := by
  have e := hE.amount_b (q := q) hg
  rw [h1, mul_one, amount_nil_light hg hq, lightOf_other (w := []) (by simp)] at e
  have hw : q.lightOf g L w = l := by
    by_cases hv : 'v' ∈ w
    · rw [lightOf_velocity hv]
      exact (hf.resolve_left fun k => k hv).trans e
    · rw [lightOf_other hv, e]
  unfold Pop.marginal
  rw [if_pos rfl, if_neg (by decide), div_one, hE.amount hg (w := w) (fun _ _ => rfl), hw, mul_div_cancel_left₀ _ hE.pos.ne']

/-! ### Plain components -/

section
variable {cube : IFUCube} {stored : Arr Num} {ρ : Cell → ℝ}

theorem tablePop_inRange (h : BaseIs cube stored g ρ L) : AllInRange g L (tablePop g ρ) := by
  unfold AllInRange
  rw [Pop.lightOf_eq h.proper (tablePop_ok h.proper h.nonneg), Pop.lightOf_eq h.proper (tablePop_ok h.proper h.nonneg), tablePop_light h.proper,
    tablePop_light h.proper]

/-- Plain components: all 50 conditional distributions are the same by light and by mass wherever all stars that meet the condition are equally bright. -/
theorem C98_plain_distributions (h : BaseIs cube stored g ρ L) (hl : (tablePop g ρ).Shines g L) (b : PyStr) :
    DistributionsAgree (obj (baseSelf cube stored)) g b (fun _ => True) (fun c => ∃ l, EquallyBright g L l b c) := fun density a hab _ =>
  SameWhere.of_gives (h.cond_is density (fun _ => hl) hab) (h.cond_is density (by simp) hab) fun c _ ⟨l, hE⟩ => by
    rw [hE.cond (tablePop_ok h.proper h.nonneg) h.proper h.lightNonneg hl hab (.inr (tablePop_inRange h))]

/-- So are their moments and L-moments, where there are stars. -/
theorem C98_plain_moments (h : BaseIs cube stored g ρ L) (hl : (tablePop g ρ).Shines g L) (b : PyStr) :
    MomentsAgree (obj (baseSelf cube stored)) g b (fun _ => True) (fun _ => True) (fun c => (tablePop g ρ).amount g L false b c ≠ 0 ∧
      (b = [] → (tablePop g ρ).amount g L false [] c = 1) ∧ ∃ l, EquallyBright g L l b c) ∧
    LMomentsAgree (obj (baseSelf cube stored)) g b (fun _ => True) (fun c => ∃ l, EquallyBright g L l b c) := by
  refine ⟨(popAt_bright (h.popAt (fun _ => hl) b) (h.popAt (by simp) b)).weaken (fun _ _ => ⟨trivial, trivial⟩)
    (fun _ _ => .inr (tablePop_inRange h)) fun c ⟨h0, h1, l, hE⟩ =>
      ⟨⟨by rw [hE.amount_b h.proper]; exact mul_ne_zero hE.pos.ne' h0, fun _ e => by cases e⟩, ⟨h0, fun e _ => h1 e⟩, l, hE⟩,
    lmoments_bright (fun c d e ⟨l, hE⟩ => ⟨l, hE.move e⟩) (C98_plain_distributions h hl b) fun lw k hk hv j hj => ?_⟩
  exact lmoments_of_tab (o := obj (baseSelf cube stored)) h.proper h.cubeIs hk hv ((h.std (fun _ => (tablePop_shines h).1 hl) b).tab _ hv)
      (respects_condWt _ b) j hj

/-- If all stars are equally bright and the total mass is 1, all marginal distributions are the same by light and by mass. -/
theorem C98_plain_marginals (h : BaseIs cube stored g ρ L) (hl : (tablePop g ρ).Shines g L) (h1 : (tablePop g ρ).amount g L false [] c = 1)
    (hE : ∃ l, EquallyBright g L l [] c) : MarginalsAgree (obj (baseSelf cube stored)) g (fun _ => True) := fun density w hw _ => by
  obtain ⟨l, hE⟩ := hE
  refine Same.of_gives (getP_marg_of_contract (h.contract true fun _ => (tablePop_shines h).1 hl) density w hw)
    (getP_marg_of_contract (h.contract false (by simp)) density w hw) fun d hd => ?_
  have h1' : (tablePop g ρ).amount g L false [] d = 1 := by rw [amount_move (c := d) (d := c) rfl, h1]
  have := marginal_bright (tablePop_ok h.proper h.nonneg) h.proper h.lightNonneg hl (hE.move (d := d) rfl) h1' (w := w) (.inr (tablePop_inRange h))
  rw [tablePop_marginal h.proper h.nonneg, tablePop_marginal h.proper h.nonneg] at this
  rw [this]

end

/-! ### Parametric components -/

theorem bright_cond_ite (h : ParamIs p g m L) (hl : (m.pop g).Shines g L) {a : PyStr} (hE : EquallyBright g L l b c) (hab : (a, b) ∈ conditionals)
    (hf : 'v' ∉ a) (V : ℝ) :
    (if m.marginal g L true b c = 0 then Num.nan else .fin (m.marginal g L true (unionStr a b) c / m.marginal g L true b c / V)) =
      if m.marginal g L false b c = 0 then Num.nan else .fin (m.marginal g L false (unionStr a b) c / m.marginal g L false b c / V) := by
  have e := hE.cond h.pop_ok h.proper h.lightNonneg hl hab (.inl hf)
  have e0 := hE.marginal_zero h.pop_ok h.proper h.lightNonneg hl
  unfold Pop.cond at e
  rw [ingr_marginal h, ingr_marginal h] at e0
  rw [ingr_marginal h, ingr_marginal h, ingr_marginal h, ingr_marginal h] at e
  by_cases hz : m.marginal g L true b c = 0
  · rw [if_pos hz, if_pos (e0.1 hz)]
  · have hz' : ¬ m.marginal g L false b c = 0 := fun k => hz (e0.2 k)
    rw [if_neg hz, if_neg hz'] at *
    injection e with e
    rw [e]

theorem mass_marginal (h : ParamIs p g m L) (w : PyStr) (c : Cell) : m.marginal g L false w c = (m.pop g).amount g L false w c := by
  rw [← ingr_marginal h, Pop.marginal, if_neg (by decide), div_one]

/-- Parametric components: conditional distributions of all variables but the velocity are the same by light and by mass wherever all stars that meet
the condition are equally bright. Missing: those of the velocity, for which this is false (`C98_velocity_wrong`). -/
theorem C98_parametric_distributions_partial (h : ParamIs p g m L) (hl : (m.pop g).Shines g L) (b : PyStr) :
    DistributionsAgree (obj p.self) g b (fun a => 'v' ∉ a)
      (fun c => (m.pop g).amount g L false b c ≠ 0 ∧ ∃ l, EquallyBright g L l b c) := by
  intro density a hab hf
  have ls : Shines g m L := param_shines.1 hl
  by_cases ho : (a, b) ∈ [(['x'],['t']), (['v'],['t','x']), (['z'],['t','x'])]
  · simp only [List.mem_cons, Prod.mk.injEq, List.not_mem_nil, or_false] at ho
    obtain ⟨⟨q1, i1, i2, i3⟩, -, ⟨q3, k1, k2, k3⟩⟩ := C32_light_ingredients h density ls
    obtain ⟨⟨q1', i1', i2', i3'⟩, -, ⟨q3', k1', k2', k3'⟩⟩ := C32_ingredients h density
    rcases ho with ⟨rfl, rfl⟩ | ⟨rfl, rfl⟩ | ⟨rfl, rfl⟩
    · refine condStr_go i1 i1' i2 i2' fun c hc ⟨h0, l, hE⟩ => (i3 c hc).trans (Eq.trans ?_ (i3' c hc).symm)
      have e := bright_cond_ite h hl (a := ['x']) hE hab hf (if density then g.volOf ['x'] c else 1)
      rw [show unionStr ['x'] ['t'] = ['t','x'] by decide] at e
      rw [e, mass_marginal h, mass_marginal h, if_neg h0, h.amount_tx hc, h.amount_t hc]
      rw [h.amount_t hc] at h0
      rw [mul_div_cancel_left₀ _ h0]
    · exact absurd hf (by decide)
    · refine condStr_go k1 k1' k2 k2' fun c hc ⟨h0, l, hE⟩ => (k3 c hc).trans (Eq.trans ?_ (k3' c hc).symm)
      have e := bright_cond_ite h hl (a := ['z']) hE hab hf (if density then g.volOf ['z'] c else 1)
      rw [show unionStr ['z'] ['t','x'] = ['t','x','z'] by decide] at e
      have e3 : (m.pop g).amount g L false ['t','x','z'] c = m.probT g c * m.probX g c * m.probZ g c := by
        rw [← mass_marginal h, Ingredients.marginal, if_neg (by decide), sumTXZ_point _ hc]
        exact weightTXZ_mass _
      rw [e, mass_marginal h, mass_marginal h, if_neg h0, e3, h.amount_tx hc]
      rw [h.amount_tx hc] at h0
      rw [mul_div_cancel_left₀ _ h0]
  · obtain ⟨r, h1, h2, h3⟩ := C32_conditionals h density true (fun _ => ls) a b hab ho
    obtain ⟨r', h1', h2', h3'⟩ := C32_conditionals h density false (by simp) a b hab ho
    exact condStr_go h1 h1' h2 h2' fun c hc ⟨h0, l, hE⟩ => (h3 c hc).trans ((bright_cond_ite h hl hE hab hf _).trans (h3' c hc).symm)

/-- Means and central moments of all variables, velocity included, are the same by light and by mass, where there are stars. So are covariances,
correlations and L-moments. Missing: covariances with the velocity and L-moments of the velocity. -/
theorem C98_parametric_moments_partial (h : ParamIs p g m L) (hf : p.f2 = 1) (hl : (m.pop g).Shines g L) (b : PyStr) :
    MomentsAgree (obj p.self) g b (fun _ => True) (fun a => 'v' ∉ a)
      (fun c => (m.pop g).amount g L false b c ≠ 0 ∧ ∃ l, EquallyBright g L l b c) ∧
    LMomentsAgree (obj p.self) g b (fun a => 'v' ∉ a) (fun c => (m.pop g).amount g L false b c ≠ 0 ∧ ∃ l, EquallyBright g L l b c) :=
  ⟨(popAt_bright (h.popAt hf (fun _ => hl) b) (h.popAt hf (by simp) b)).weaken (fun _ _ => ⟨trivial, trivial⟩) (fun _ e => .inl e)
    fun c ⟨h0, l, hE⟩ => ⟨by rw [hE.amount_b h.proper]; exact mul_ne_zero hE.pos.ne' h0, h0, l, hE⟩,
  lmoments_bright (fun c d e ⟨h0, l, hE⟩ => ⟨by rwa [amount_move e], l, hE.move e⟩) (C98_parametric_distributions_partial h hl b)
    fun lw k hk hv j hj => h.lmoments_of (fun _ => hl) hk hv j hj⟩

/-- If all stars are equally bright, marginal distributions of all variables but the velocity are the same by light and by mass. -/
theorem C98_parametric_marginals_partial (h : ParamIs p g m L) (hl : (m.pop g).Shines g L) (hE : ∃ l, EquallyBright g L l [] c) :
    MarginalsAgree (obj p.self) g (fun w => 'v' ∉ w) := fun density w hw hv => by
  obtain ⟨l, hE⟩ := hE
  obtain ⟨r, h1, h2, h3⟩ := C32_marginals h density true (fun _ => param_shines.1 hl) w hw
  obtain ⟨r', h1', h2', h3'⟩ := C32_marginals h density false (by simp) w hw
  refine ⟨r, r', h1, h1', h2, h2', fun d hd _ => ?_⟩
  have := marginal_bright h.pop_ok h.proper h.lightNonneg hl (hE.move (d := d) rfl) (h.amount_nil d) (w := w) (.inl hv)
  rw [ingr_marginal h, ingr_marginal h] at this
  rw [List.nil_append, h3 d hd, h3' d hd, this]

/-! ### Mixtures -/

section
variable {mx : Mix} {n : ℕ} {ω : ℕ → ℝ} {pop : ℕ → Pop}

/-- Mixtures: conditional distributions are the same by light and by mass wherever all stars that meet the condition are equally bright. Missing: those of
the velocity, unless all light is in the velocity range of the grid. -/
theorem C98_mixture_distributions_partial (h : MixOf mx g n ω pop L) (hl : (mixPop n ω pop).Shines g L) (b : PyStr) :
    DistributionsAgree (Mix.obj mx) g b (fun a => 'v' ∉ a ∨ AllInRange g L (mixPop n ω pop)) (fun c => ∃ l, EquallyBright g L l b c) := by
  intro density a hab hf
  obtain ⟨r, h1, h2, h3⟩ := C65_conditionals h density true (fun _ => hl) a b hab
  obtain ⟨r', h1', h2', h3'⟩ := C65_conditionals h density false (by simp) a b hab
  exact condStr_go h1 h1' h2 h2' fun c hc ⟨l, hE⟩ => by
    rw [h3 c hc, h3' c hc, hE.cond h.mixOk h.proper h.lightNonneg hl hab hf]

/-- So are moments and L-moments, where all members have stars (elsewhere nan, C29). Missing: moments given the velocity, central moments of the velocity
given age, position and metallicity, and covariances with the velocity unless all light is in the velocity range of the grid. -/
theorem C98_mixture_moments_partial (h : MixOf mx g n ω pop L) (hl : ∀ i < n, (pop i).Shines g L)
    (hm : ∀ (i : ℕ) (hi : i < mx.children.length), IsMember1 g L mx.children[i] (pop i)) (b : PyStr) (hv : 'v' ∉ b) :
    MomentsAgree (Mix.obj mx) g b (fun a => ¬ (a = ['v'] ∧ b = ['t','x','z'])) (fun a => 'v' ∉ a ∨ AllInRange g L (mixPop n ω pop))
      (fun c => (∀ i < n, (pop i).amount g L false b c ≠ 0) ∧ (b = [] → (mixPop n ω pop).amount g L false [] c = 1) ∧
        ∃ l, EquallyBright g L l b c) ∧
    LMomentsAgree (Mix.obj mx) g b (fun a => 'v' ∉ a ∨ AllInRange g L (mixPop n ω pop)) (fun c => ∃ l, EquallyBright g L l b c) :=
  ⟨(popAt_bright (h.popAt (fun _ => hl) hm b (.inr hv)) (h.popAt (by simp) hm b (.inr hv))).weaken (fun _ e => ⟨e, e⟩) (fun _ e => e)
    fun c ⟨h0, h1, l, hE⟩ => ⟨⟨fun i hi => by rw [hE.amount_b h.proper]; exact mul_ne_zero hE.pos.ne' (h0 i hi), fun _ e => by cases e⟩,
      ⟨h0, fun e _ => h1 e⟩, l, hE⟩,
  lmoments_bright (fun c d e ⟨l, hE⟩ => ⟨l, hE.move e⟩) (C98_mixture_distributions_partial h (mix_shines h hl) b)
    fun lw k hk hv j hj => h.lmoments_of (fun _ => hl) hk hv j hj⟩

/-- If all stars are equally bright and the total mass is 1, the marginal distributions are the same by light and by mass. -/
theorem C98_mixture_marginals_partial (h : MixOf mx g n ω pop L) (hl : (mixPop n ω pop).Shines g L) (h1 : (mixPop n ω pop).amount g L false [] c = 1)
    (hE : ∃ l, EquallyBright g L l [] c) : MarginalsAgree (Mix.obj mx) g (fun w => 'v' ∉ w ∨ AllInRange g L (mixPop n ω pop)) :=
  fun density w hw hv => by
  obtain ⟨l, hE⟩ := hE
  obtain ⟨r, k1, k2, k3⟩ := C65_marginals h density true (fun _ => hl) w hw
  obtain ⟨r', k1', k2', k3'⟩ := C65_marginals h density false (by simp) w hw
  refine ⟨r, r', k1, k1', k2, k2', fun d hd _ => ?_⟩
  have h1' : (mixPop n ω pop).amount g L false [] d = 1 := by rw [amount_move (c := d) (d := c) rfl, h1]
  have := marginal_bright h.mixOk h.proper h.lightNonneg hl (hE.move (d := d) rfl) h1' (w := w) hv
  rw [List.nil_append, k3 d hd, k3' d hd, this]

end

/-! ### Who is equally bright -/

theorem coords_mem {d : Cell} (e : coords b d = coords b c) : ∀ k ∈ b, coord1 d k = coord1 c k := by
  induction b with
  | nil => simp
  | cons a b ih =>
    intro k hk
    have hlen : (coord1 d a).length = (coord1 c a).length := by unfold coord1; split_ifs <;> rfl
    obtain ⟨e1, e2⟩ := List.append_inj (show coord1 d a ++ coords b d = coord1 c a ++ coords b c from e) hlen
    rcases List.mem_cons.1 hk with rfl | hk
    · exact e1
    · exact ih e2 k hk

/-- Stars of one age and metallicity, in every library. -/
theorem bright_given_tz (hb : 't' ∈ b) (hb' : 'z' ∈ b) (hc : 0 < L c.t c.z) : EquallyBright g L (L c.t c.z) b c := by
  refine ⟨hc, fun d _ e => ?_⟩
  have h1 := coords_mem e _ hb
  have h2 := coords_mem e _ hb'
  simp [coord1] at h1 h2
  rw [h1, h2]

/-- If the library does not depend on metallicity, stars of one age. -/
theorem bright_given_t (hL : ∀ t z, L t z = L t 0) (hb : 't' ∈ b) (hc : 0 < L c.t 0) : EquallyBright g L (L c.t 0) b c := by
  refine ⟨hc, fun d _ e => ?_⟩
  have := coords_mem e _ hb
  simp [coord1] at this
  rw [hL, this]

/-! ### Velocities of parametric components by light -/

/-- Velocity distributions of parametric components differ by light and by mass even if all stars that meet the condition are equally bright: those by
light contain the fraction of all light in the velocity range. Here a "probability" by light is above 2, by mass at most 1. -/
theorem C98_velocity_wrong : ∃ (p : Param) (m : Ingredients) (c : Cell) (l : ℝ) (r r' : Arr Num) (u u' : ℝ), ParamIs p demoGrid m demoL ∧
    demoGrid.Has c ∧ EquallyBright demoGrid demoL l ['t'] c ∧ (m.pop demoGrid).amount demoGrid demoL false ['t'] c ≠ 0 ∧
    getP p.self ['v','_','t'] false true = .ok r ∧ getP p.self ['v','_','t'] false false = .ok r' ∧
    r.get [c.v, c.t] = .fin u ∧ r'.get [c.v, c.t] = .fin u' ∧ 2 < u ∧ u' ≤ 1 := by
  obtain ⟨p, h, -⟩ := flatDisk_exists (fun t => if t = 0 then 50 else 1000)
  have hc : demoGrid.Has ⟨0, 1, 0, 0, 0⟩ := by
    refine ⟨?_, ?_, ?_, ?_, ?_⟩ <;> norm_num [demoGrid, cubeGrid]
  obtain ⟨r, h1, -, h2⟩ := C32_conditionals h false true (fun _ => param_shines.1 (flat_shines _)) ['v'] ['t'] (by decide +kernel) (by decide)
  obtain ⟨r', h1', -, h2'⟩ := C32_conditionals h false false (by simp) ['v'] ['t'] (by decide +kernel) (by decide)
  have e := h2 _ hc
  have e' := h2' _ hc
  have hu : unionStr ['v'] ['t'] = ['t','v'] := by decide
  have hE : EquallyBright demoGrid demoL 1 ['t'] ⟨0, 1, 0, 0, 0⟩ := by
    have := bright_given_t (g := demoGrid) (L := demoL) (b := ['t']) (c := ⟨0, 1, 0, 0, 0⟩) (fun _ _ => rfl) (by decide) (by norm_num [demoL])
    rwa [show demoL 0 0 = 1 by norm_num [demoL]] at this
  have a1 := hE.amount_b (q := (flatIngr fun t => if t = 0 then 50 else 1000).pop demoGrid) h.proper
  have a2 := hE.amount (q := (flatIngr fun t => if t = 0 then 50 else 1000).pop demoGrid) h.proper (w := ['t','v'])
    (fun d e => by simp [coords, coord1] at e ⊢; exact e.1)
  rw [one_mul, flat_amountT _ _ rfl] at a1
  rw [one_mul, flat_amountTV _ _ rfl rfl] at a2
  have hm : ((flatIngr fun t => if t = 0 then 50 else 1000).pop demoGrid).marginal demoGrid demoL true ['t'] ⟨0, 1, 0, 0, 0⟩ = 1 / 3 := by
    unfold Pop.marginal
    rw [if_pos rfl, flat_amountT _ _ rfl, flat_lightT]; norm_num
  have hm' : ((flatIngr fun t => if t = 0 then 50 else 1000).pop demoGrid).marginal demoGrid demoL true ['t','v'] ⟨0, 1, 0, 0, 0⟩ =
      (normal (if 0 = 0 then 50 else 1000) (1 / 10)).real (Set.Ioc 0 100) / 2 /
        ((flatIngr fun t => if t = 0 then 50 else 1000).pop demoGrid).lightOf demoGrid demoL ['v'] := by
    unfold Pop.marginal
    rw [if_pos rfl, flat_amountTV _ _ rfl rfl, lightOf_velocity (w := ['t','v']) (by decide)]
  rw [hu, ← ingr_marginal h, ← ingr_marginal h, hm, hm', flat_lightV, if_neg (by norm_num)] at e
  rw [hu, mass_marginal h, mass_marginal h, ← a1, ← a2, if_neg (by norm_num)] at e'
  refine ⟨p, _, _, _, r, r', _, _, h, hc, hE, by rw [← a1]; norm_num, h1, h1', e, e', ?_, ?_⟩
  · have a1 := normal_near (μ := 50) (σ := 1 / 10) (a := 0) (b := 100) (by norm_num) (by norm_num)
    have a0 := normal_far (μ := 50) (σ := 1 / 10) (a := -100) (b := 0) (by norm_num)
    have a2 := normal_far (μ := 50) (σ := 1 / 10) (a := 100) (b := 200) (by norm_num)
    have a3 := normal_far (μ := 50) (σ := 1 / 10) (a := 200) (b := 300) (by norm_num)
    have a4 := @MeasureTheory.measureReal_le_one _ _ (normal 50 (1 / 10)) _ (Set.Ioc 0 100)
    have b0 := normal_far (μ := 1000) (σ := 1 / 10) (a := -100) (b := 0) (by norm_num)
    have b1 := normal_far (μ := 1000) (σ := 1 / 10) (a := 0) (b := 100) (by norm_num)
    have b2 := normal_far (μ := 1000) (σ := 1 / 10) (a := 100) (b := 200) (by norm_num)
    have b3 := normal_far (μ := 1000) (σ := 1 / 10) (a := 200) (b := 300) (by norm_num)
    have c0 := @MeasureTheory.measureReal_nonneg _ _ (normal 1000 (1 / 10)) (Set.Ioc (-100) 0)
    have c1 := @MeasureTheory.measureReal_nonneg _ _ (normal 1000 (1 / 10)) (Set.Ioc 0 100)
    have c2 := @MeasureTheory.measureReal_nonneg _ _ (normal 1000 (1 / 10)) (Set.Ioc 100 200)
    have c3 := @MeasureTheory.measureReal_nonneg _ _ (normal 1000 (1 / 10)) (Set.Ioc 200 300)
    have d0 := @MeasureTheory.measureReal_nonneg _ _ (normal 50 (1 / 10)) (Set.Ioc (-100) 0)
    have d2 := @MeasureTheory.measureReal_nonneg _ _ (normal 50 (1 / 10)) (Set.Ioc 100 200)
    have d3 := @MeasureTheory.measureReal_nonneg _ _ (normal 50 (1 / 10)) (Set.Ioc 200 300)
    simp only [Fin.sum_univ_four]
    simp only [Fin.val_zero, Fin.val_one, Fin.val_two, show ((3 : Fin 4) : ℕ) = 3 from rfl]
    norm_num at a0 a1 a2 a3 b0 b1 b2 b3 ⊢
    rw [div_div, lt_div_iff₀ (by linarith)]
    linarith
  · have a4 := @MeasureTheory.measureReal_le_one _ _ (normal 50 (1 / 10)) _ (Set.Ioc 0 100)
    simp only [if_true, Bool.false_eq_true, if_false, div_one]
    rw [div_div_div_cancel_right₀ two_ne_zero, div_one]
    exact a4

/-! ### The hypotheses are met -/

/-- A plain component with stars everywhere, in a library in which brightness depends on age: all conditions that fix the age. -/
example : ∃ (cube : IFUCube) (r r' : Arr Num), BaseIs cube (uniformStored 2 3 7) (uniformGrid 2 3 7 (-70, 70)) (fun _ => 1) demoL ∧
    getMean (baseSelf cube (uniformStored 2 3 7)) ['v','_','t','z'] true = .ok r ∧ getMean (baseSelf cube (uniformStored 2 3 7)) ['v','_','t','z'] false = .ok r' ∧
    r.get [1, 2] = r'.get [1, 2] := by
  obtain ⟨cube, -, -, h, -⟩ := ybar_demo
  have hc : (uniformGrid 2 3 7 (-70, 70)).Has ⟨1, 0, 0, 0, 2⟩ := by
    refine ⟨?_, ?_, ?_, ?_, ?_⟩ <;> norm_num [uniformGrid, cubeGrid]
  have hl : (tablePop (uniformGrid 2 3 7 (-70, 70)) fun _ => 1).Shines (uniformGrid 2 3 7 (-70, 70)) demoL := by
    have := table_amount_pos (lw := true) h.proper (fun _ => one_pos) demoL_pos hc []
    rwa [amount_nil_light h.proper (tablePop_ok h.proper fun c => zero_le_one)] at this
  obtain ⟨r, r', e1, e2, -, -, e3⟩ := (C98_plain_moments h hl ['t','z']).1.mean 'v' (by decide) (.inr (by decide +kernel))
  exact ⟨cube, r, r', h, e1, e2, e3 _ hc ⟨(table_amount_pos h.proper (fun _ => one_pos) demoL_pos hc _).ne', by simp, _,
    bright_given_tz (by decide) (by decide) (demoL_pos _ _)⟩⟩

/-- The disk and the mixture of two disks. -/
example : ∃ (p : Param) (m : Ingredients) (mx : Mix), ParamIs p demoGrid m demoL ∧ p.f2 = 1 ∧ (m.pop demoGrid).Shines demoGrid demoL ∧
    MixOf mx demoGrid 2 (fun _ => 1 / 2) (fun _ => m.pop demoGrid) demoL ∧
    (∀ (i : ℕ) (hi : i < mx.children.length), IsMember1 demoGrid demoL mx.children[i] (m.pop demoGrid)) ∧
    ∀ c, demoGrid.Has c → ∀ b ∈ [['t'], ['t','x'], ['t','z'], ['t','x','z']], (m.pop demoGrid).amount demoGrid demoL false b c ≠ 0 ∧
      ∃ l, EquallyBright demoGrid demoL l b c := by
  obtain ⟨mx, p, -, h, hf, h1, h2⟩ := flatMix_exists (fun t => if t = 0 then 99 else 101)
  refine ⟨p, _, mx, h, hf, flat_shines _, h1, h2, fun c hc b hb => ⟨?_, _, bright_given_t (fun _ _ => rfl) ?_ (demoL_pos _ _)⟩⟩
  · exact (ingr_amount_pos h demoL_pos hc (by rw [flat_probTXZ _ hc]; norm_num) rfl).ne'
  · simp only [List.mem_cons, List.not_mem_nil, or_false] at hb
    rcases hb with rfl | rfl | rfl | rfl <;> decide

/-- Equally bright stars everywhere: a constant library. -/
example : ∃ (p : Param) (m : Ingredients) (L : ℕ → ℕ → ℝ) (l : ℝ), ParamIs p demoGrid m L ∧ (m.pop demoGrid).Shines demoGrid L ∧
    (m.pop demoGrid).amount demoGrid L false [] ⟨0, 0, 0, 0, 0⟩ = 1 ∧ EquallyBright demoGrid L l [] ⟨0, 0, 0, 0, 0⟩ := by
  obtain ⟨p, h, -⟩ := flatDisk_exists (fun _ => 50)
  have h' : ParamIs { p with cube := { p.cube with ssps := { p.cube.ssps with lightWeights := ⟨p.cube.ssps.lightWeights.shape, fun _ => .fin 2⟩ } } }
      demoGrid (flatIngr fun _ => 50) (fun _ _ => 2) :=
    ⟨h.proper, ⟨h.cubeIs.tEdges, h.cubeIs.zEdges, h.cubeIs.tCents, h.cubeIs.zCents, h.cubeIs.deltaT, h.cubeIs.deltaZ, h.cubeIs.vEdg, h.cubeIs.x,
      h.cubeIs.y, h.cubeIs.dx, h.cubeIs.dy, h.cubeIs.nx, h.cubeIs.ny⟩, h.norm, h.logPt, h.logPxt, h.logPztx, h.muV, h.sigV, ⟨h.light.1, fun _ _ => rfl⟩,
      fun _ _ => by norm_num⟩
  have hE : EquallyBright demoGrid (fun _ _ => 2) 2 [] ⟨0, 0, 0, 0, 0⟩ := ⟨by norm_num, fun _ _ _ => rfl⟩
  refine ⟨_, _, _, 2, h', ?_, h'.amount_nil _, hE⟩
  have := hE.amount_b (q := (flatIngr fun _ => 50).pop demoGrid) h'.proper
  rw [h'.amount_nil, amount_nil_light h'.proper h'.pop_ok, lightOf_other (w := []) (by simp)] at this
  unfold Pop.Shines
  rw [this]; norm_num

end PKM
