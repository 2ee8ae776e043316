import Verif.Props.FluxUnit

/-!
# C97: answers given a condition depend only on the stars that meet it

Two components have the same stars, up to a common factor, among those that meet a condition (say, in one pixel, or of one age), and any other stars
elsewhere. Their answers given that condition are the same. In a pixel, their spectra differ by that factor.
-/

open scoped Classical

noncomputable section

namespace PKM
open Np Component

/-! ### Specification -/

/-- Among the stars that have the values of `b` at `c`, the population `q'` is `κ` times the population `q`: bin by bin of velocity, and
for the velocities themselves unless `b` contains the velocity. -/
structure AlikeGiven (g : Grid) (κ : ℝ) (q q' : Pop) (b : PyStr) (c : Cell) : Prop where
  pos : 0 < κ
  joint : ∀ d, g.Has d → coords b d = coords b c → q'.joint d = κ * q.joint d
  vel : 'v' ∉ b → ∀ φ d, g.Has d → coords b d = coords b c → q'.vel φ d = κ * q.vel φ d

/-- The fraction of all light from stars in the velocity range of the grid is the same. -/
def SameFraction (g : Grid) (L : ℕ → ℕ → ℝ) (q q' : Pop) : Prop :=
  q'.lightOf g L ['v'] * q.lightOf g L ['t','x','z'] = q.lightOf g L ['v'] * q'.lightOf g L ['t','x','z']

/-- Means, central moments, covariances and correlations given `b` are the same where `good`. `ask`: the variables of which the central moments
are asked; `pairs`: those of which covariances are. -/
structure SameGiven (o o' : Obj) (g : Grid) (lw : Bool) (b : PyStr) (ask pairs : PyStr → Prop) (good : Cell → Prop) : Prop where
  mean : ∀ q ∈ ['t','v','x','y','z'], ValidPair (varOf q) b →
    SameWhere good (compShape (varOf q)) (compIdx q) (o.getMean (distStr (varOf q) b) lw) (o'.getMean (distStr (varOf q) b) lw) g b
  central : ∀ j, ∀ q ∈ ['t','v','x','y','z'], ValidPair (varOf q) b → ask (varOf q) →
    SameWhere good (compShape (varOf q)) (compIdx q) (o.getCentralMoment (distStr (varOf q) b) j lw) (o'.getCentralMoment (distStr (varOf q) b) j lw) g b
  covariance : ∀ a a', ValidPair [a, a'] b → pairs [a, a'] → ∀ q q', varOf q = [a] → varOf q' = [a'] →
    SameWhere good (compShape [a] ++ compShape [a']) (compIdx q ++ compIdx q') (o.getCovariance (distStr [a, a'] b) lw)
      (o'.getCovariance (distStr [a, a'] b) lw) g b
  correlation : ∀ a a', ValidPair [a, a'] b → pairs [a, a'] → ask [a] → ask [a'] → ∀ q q', varOf q = [a] → varOf q' = [a'] →
    SameWhere good (compShape [a] ++ compShape [a']) (compIdx q ++ compIdx q') (o.getCorrelation (distStr [a, a'] b) lw)
      (o'.getCorrelation (distStr [a, a'] b) lw) g b

/-- Distributions of the variables `ask` given `b` are the same where `good`. -/
def SameDistributionsGiven (o o' : Obj) (g : Grid) (lw : Bool) (b : PyStr) (ask : PyStr → Prop) (good : Cell → Prop) : Prop :=
  ∀ density a, (a, b) ∈ conditionals → ask a →
    SameWhere good [] [] (o.getP (condStr a b) density lw) (o'.getP (condStr a b) density lw) g (condStr a b)

/-- So are their L-moments, if the distribution has no nan. -/
def SameLMomentsGiven (o o' : Obj) (g : Grid) (lw : Bool) (b : PyStr) (ask : PyStr → Prop) (good : Cell → Prop) : Prop :=
  ∀ k ∈ ['t','v','z'], ([k], b) ∈ conditionals → ask [k] → ∀ j : ℕ, 1 ≤ j → ∃ A, o.getP (condStr [k] b) false lw = .ok A ∧
    SameWhere (fun c => good c ∧ ∀ i < g.bins k, ∃ u : ℝ, A.get (i :: coords b c) = .fin u) [] [] (o.getLMoment (condStr [k] b) j lw)
      (o'.getLMoment (condStr [k] b) j lw) g b

/-- Both datacubes return; in the pixel `i`, `j` the second is `κ` times the first. -/
def TimesInPixel (κ : ℝ) (i j : ℕ) (r r' : Py (Arr Num)) (n nx ny : ℕ) : Prop :=
  ∃ y y', r = .ok y ∧ r' = .ok y' ∧ y.shape = [n, nx, ny] ∧ y'.shape = [n, nx, ny] ∧
    ∀ k < n, ∃ u : ℝ, y.get [k, i, j] = .fin u ∧ y'.get [k, i, j] = .fin (κ * u)

variable {g : Grid} {L : ℕ → ℕ → ℝ} {lw : Bool} {p p' : Param} {m m' : Ingredients} {o o' : Obj} {q q' : Pop} {b : PyStr} {c : Cell} {κ : ℝ}

/-! ### Lemmas: sums over the stars that meet the condition -/

namespace AlikeGiven

theorem stars (h : AlikeGiven g κ q q' b c) (hv : 'v' ∉ b) {d : Cell} (hd : g.Has d) (e : coords b d = coords b c) : q'.stars d = κ * q.stars d :=
  h.vel hv _ d hd e

theorem sumJ (h : AlikeGiven g κ q q' b c) {w : PyStr} (hw : ∀ d, coords w d = coords w c → coords b d = coords b c) (f : Cell → ℝ) :
    g.sumCells (fun d => if coords w d = coords w c then f d * q'.joint d else 0) =
      κ * g.sumCells (fun d => if coords w d = coords w c then f d * q.joint d else 0) := by
  rw [← sumCells_unit]
  refine sumCells_onGrid fun d hd => ?_
  split
  · next e => rw [h.joint d hd (hw d e)]; ring
  · simp

theorem sumV (h : AlikeGiven g κ q q' b c) (hg : g.Proper) (hv : 'v' ∉ b) {w : PyStr} (hw : ∀ d, coords w d = coords w c → coords b d = coords b c)
    (f : Cell → ℝ) (φ : Cell → ℝ → ℝ) :
    Ingredients.sumTXZ g (fun d => if coords w d = coords w c then f d * q'.vel (φ d) d else 0) =
      κ * Ingredients.sumTXZ g (fun d => if coords w d = coords w c then f d * q.vel (φ d) d else 0) := by
  rw [← sumTXZ_unit]
  refine sumTXZ_has hg fun d hd => ?_
  split
  · next e => rw [h.vel hv _ d hd (hw d e)]; ring
  · simp

theorem amount (h : AlikeGiven g κ q q' b c) (hg : g.Proper) {w : PyStr} (hw : ∀ d, coords w d = coords w c → coords b d = coords b c)
    (hv : 'v' ∈ b → 'v' ∈ w) : q'.amount g L lw w c = κ * q.amount g L lw w c := by
  unfold Pop.amount
  split
  · exact h.sumJ hw _
  · next e => exact h.sumV hg (fun e' => e (hv e')) hw _ (fun _ _ => 1)

theorem amount_b (h : AlikeGiven g κ q q' b c) (hg : g.Proper) : q'.amount g L lw b c = κ * q.amount g L lw b c :=
  h.amount hg (fun _ e => e) id

theorem expect (h : AlikeGiven g κ q q' b c) (hg : g.Proper) {k : Char} (hk : k = 'v' → 'v' ∉ b) (φ : ℝ → ℝ) :
    q'.expect g L lw b k φ c = q.expect g L lw b k φ c := by
  unfold Pop.expect
  rw [h.amount_b hg]
  have hκ := h.pos.ne'
  split
  · next e => rw [h.sumV hg (hk e) (fun _ e => e) _ (fun _ => φ), mul_div_mul_left _ _ hκ]
  · split
    · have := h.sumJ (w := b) (fun _ e => e) (fun d => Pop.wt L lw d * φ (g.value k d))
      simp only [mul_assoc] at this
      rw [this, mul_div_mul_left _ _ hκ]
    · next hv =>
      have := h.sumV hg hv (w := b) (fun _ e => e) (fun d => Pop.wt L lw d * φ (g.value k d)) (fun _ _ => 1)
      simp only [mul_assoc] at this
      unfold Pop.stars
      rw [this, mul_div_mul_left _ _ hκ]

theorem mean (h : AlikeGiven g κ q q' b c) (hg : g.Proper) {k : Char} (hk : k = 'v' → 'v' ∉ b) : q'.mean g L lw b k c = q.mean g L lw b k c :=
  h.expect hg hk _

theorem central (h : AlikeGiven g κ q q' b c) (hg : g.Proper) {k : Char} (hk : k = 'v' → 'v' ∉ b) (j : ℕ) :
    q'.central g L lw b k j c = q.central g L lw b k j c := by
  unfold Pop.central
  rw [h.mean hg hk, h.expect hg hk]

theorem expectOf (h : AlikeGiven g κ q q' b c) (hg : g.Proper) (f : Cell → ℝ) : q'.expectOf g L lw b f c = q.expectOf g L lw b f c := by
  unfold Pop.expectOf
  rw [h.amount_b hg]
  have hκ := h.pos.ne'
  split
  · have := h.sumJ (w := b) (fun _ e => e) (fun d => Pop.wt L lw d * f d)
    simp only [mul_assoc] at this
    rw [this, mul_div_mul_left _ _ hκ]
  · next hv =>
    have := h.sumV hg hv (w := b) (fun _ e => e) (fun d => Pop.wt L lw d * f d) (fun _ _ => 1)
    simp only [mul_assoc] at this
    unfold Pop.stars
    rw [this, mul_div_mul_left _ _ hκ]

theorem cov (h : AlikeGiven g κ q q' b c) (hg : g.Proper) {k k' : Char} (hk : k ≠ 'v') (hk' : k' ≠ 'v') :
    q'.cov g L lw b k k' c = q.cov g L lw b k k' c := by
  unfold Pop.cov
  rw [h.mean hg (fun e => absurd e hk), h.mean hg (fun e => absurd e hk'), h.expectOf hg]

end AlikeGiven

theorem lightOf_velocity {w : PyStr} (hv : 'v' ∈ w) : q.lightOf g L w = q.lightOf g L ['v'] := by
  unfold Pop.lightOf
  rw [if_pos hv, if_pos (by decide)]

theorem lightOf_other {w : PyStr} (hv : 'v' ∉ w) : q.lightOf g L w = q.lightOf g L ['t','x','z'] := by
  unfold Pop.lightOf
  rw [if_neg hv, if_neg (by decide)]

/-- The factor by which the velocity range counts. -/
theorem fraction_ratio (hf : SameFraction g L q q') (h1 : q.lightOf g L ['v'] ≠ 0) (h2 : q'.lightOf g L ['v'] ≠ 0)
    (h3 : q.lightOf g L ['t','x','z'] ≠ 0) (h4 : q'.lightOf g L ['t','x','z'] ≠ 0) (A B : ℝ) (hκ : κ ≠ 0) :
    κ * A / q'.lightOf g L ['v'] / (κ * B / q'.lightOf g L ['t','x','z']) = A / q.lightOf g L ['v'] / (B / q.lightOf g L ['t','x','z']) := by
  unfold SameFraction at hf
  by_cases hB : B = 0
  · simp [hB]
  · rw [div_div_div_eq, div_div_div_eq, div_eq_div_iff (by positivity) (by positivity)]
    linear_combination (-κ * A * B) * hf

theorem ratio_same {l l' : ℝ} (hl : l ≠ 0) (hl' : l' ≠ 0) (A B : ℝ) (hκ : κ ≠ 0) : κ * A / l' / (κ * B / l') = A / l / (B / l) := by
  rw [div_div_div_cancel_right₀ hl', div_div_div_cancel_right₀ hl, mul_div_mul_left _ _ hκ]

theorem Pop.Ok.light_ne (h : q.Ok g) (hg : g.Proper) (hL : ∀ t z, 0 ≤ L t z) (hs : q.Shines g L) (w : PyStr) : q.lightOf g L w ≠ 0 :=
  (h.light_pos hg hL hs w).ne'

/-- Ratios of marginals. -/
theorem AlikeGiven.ratio (h : AlikeGiven g κ q q' b c) (hq : q.Ok g) (hq' : q'.Ok g) (hg : g.Proper) (hL : ∀ t z, 0 ≤ L t z)
    (hl : lw = true → q.Shines g L) (hl' : lw = true → q'.Shines g L) {w : PyStr} (hv : 'v' ∈ b → 'v' ∈ w)
    (hf : lw = false ∨ ('v' ∈ w → 'v' ∈ b) ∨ SameFraction g L q q') (A : ℝ) :
    κ * A / (if lw then q'.lightOf g L w else 1) / q'.marginal g L lw b c = A / (if lw then q.lightOf g L w else 1) / q.marginal g L lw b c := by
  have hκ := h.pos.ne'
  unfold Pop.marginal
  rw [h.amount_b hg]
  cases lw with
  | false =>
    simp only [Bool.false_eq_true, if_false, div_one]
    rw [mul_div_mul_left _ _ hκ]
  | true =>
    simp only [if_true]
    have n := fun w => hq.light_ne hg hL (hl rfl) w
    have n' := fun w => hq'.light_ne hg hL (hl' rfl) w
    by_cases e : 'v' ∈ w
    · by_cases e' : 'v' ∈ b
      · rw [lightOf_velocity e, lightOf_velocity e, lightOf_velocity e', lightOf_velocity e', ratio_same (n _) (n' _) _ _ hκ]
      · have hf := (hf.resolve_left (by simp)).resolve_left (fun k => e' (k e))
        rw [lightOf_velocity e, lightOf_velocity e, lightOf_other e', lightOf_other e', fraction_ratio hf (n _) (n' _) (n _) (n' _) _ _ hκ]
    · have e' : 'v' ∉ b := fun k => e (hv k)
      rw [lightOf_other e, lightOf_other e, lightOf_other e', lightOf_other e', ratio_same (n _) (n' _) _ _ hκ]

theorem AlikeGiven.marginal_zero (h : AlikeGiven g κ q q' b c) (hq : q.Ok g) (hq' : q'.Ok g) (hg : g.Proper) (hL : ∀ t z, 0 ≤ L t z)
    (hl : lw = true → q.Shines g L) (hl' : lw = true → q'.Shines g L) : q'.marginal g L lw b c = 0 ↔ q.marginal g L lw b c = 0 := by
  have hκ := h.pos.ne'
  unfold Pop.marginal
  rw [h.amount_b hg]
  have n : (if lw then q.lightOf g L b else 1) ≠ 0 := by
    split
    · next e => exact hq.light_ne hg hL (hl e) b
    · exact one_ne_zero
  have n' : (if lw then q'.lightOf g L b else 1) ≠ 0 := by
    split
    · next e => exact hq'.light_ne hg hL (hl' e) b
    · exact one_ne_zero
  simp [div_eq_zero_iff, n, n', hκ]

theorem union_sub : ∀ p ∈ conditionals, ∀ u ∈ p.2, u ∈ unionStr p.1 p.2 := by decide +kernel

theorem AlikeGiven.cond (h : AlikeGiven g κ q q' b c) (hq : q.Ok g) (hq' : q'.Ok g) (hg : g.Proper) (hL : ∀ t z, 0 ≤ L t z)
    (hl : lw = true → q.Shines g L) (hl' : lw = true → q'.Shines g L) {a : PyStr} (hab : (a, b) ∈ conditionals)
    (hf : lw = false ∨ 'v' ∉ a ∨ SameFraction g L q q') : q'.cond g L lw a b c = q.cond g L lw a b c := by
  have hvu : ∀ p ∈ conditionals, 'v' ∉ p.1 → 'v' ∈ unionStr p.1 p.2 → 'v' ∈ p.2 := by decide +kernel
  unfold Pop.cond
  refine if_congr (h.marginal_zero hq hq' hg hL hl hl') rfl (congrArg Num.fin ?_)
  have e := h.amount (L := L) (lw := lw) hg (w := unionStr a b) (fun d => coords_union_eq (a, b) hab c d) (union_sub _ hab 'v')
  conv_lhs => rw [Pop.marginal, e]
  rw [h.ratio hq hq' hg hL hl hl' (union_sub _ hab 'v') (hf.imp_right (Or.imp_left (hvu _ hab)))]
  rfl

theorem AlikeGiven.binCov (h : AlikeGiven g κ q q' b c) (hq : q.Ok g) (hq' : q'.Ok g) (hg : g.Proper) (hL : ∀ t z, 0 ≤ L t z)
    (hl : lw = true → q.Shines g L) (hl' : lw = true → q'.Shines g L) {k : Char} (hk : k ≠ 'v') (hb : 'v' ∉ b)
    (hf : lw = false ∨ SameFraction g L q q') : q'.binCov g L lw b k c = q.binCov g L lw b k c := by
  unfold Pop.binCov
  rw [h.mean hg (fun _ => hb), h.mean hg (fun e => absurd e hk)]
  have e := h.sumJ (w := b) (fun _ e => e) (fun d => Pop.wt L lw d * ((centre g.v d.v - q.mean g L lw b 'v' c) * (g.value k d - q.mean g L lw b k c)))
  simp only [mul_assoc] at e
  simp only [mul_assoc]
  rw [e]
  exact h.ratio hq hq' hg hL hl hl' (fun k => absurd k hb) (hf.imp_right Or.inr) _

theorem AlikeGiven.givenCov (h : AlikeGiven g κ q q' b c) (hq : q.Ok g) (hq' : q'.Ok g) (hg : g.Proper) (hL : ∀ t z, 0 ≤ L t z)
    (hl : lw = true → q.Shines g L) (hl' : lw = true → q'.Shines g L) {k k' : Char} (hkk : k = 'v' → k' ≠ 'v') (hb : k = 'v' ∨ k' = 'v' → 'v' ∉ b)
    (hf : lw = false ∨ (k ≠ 'v' ∧ k' ≠ 'v') ∨ SameFraction g L q q') : q'.givenCov g L lw b k k' c = q.givenCov g L lw b k k' c := by
  unfold Pop.givenCov
  split
  · next e => exact h.binCov hq hq' hg hL hl hl' (hkk e) (hb (.inl e)) (hf.imp_right (Or.resolve_left · (fun k => k.1 e)))
  · next e =>
    split
    · next e' => exact h.binCov hq hq' hg hL hl hl' e (hb (.inr e')) (hf.imp_right (Or.resolve_left · (fun k => k.2 e')))
    · next e' => exact h.cov hg e e'


/-! ### Moments of any two objects -/

theorem popAt_given {ask ask' : PyStr → Prop} {good good' : Cell → Prop} (h : PopAt o q g L lw b ask good) (h' : PopAt o' q' g L lw b ask' good') :
    SameGiven o o' g lw b (fun a => ask a ∧ ask' a) (fun a => lw = false ∨ 'v' ∉ a ∨ SameFraction g L q q')
      (fun c => good c ∧ good' c ∧ ∃ κ, AlikeGiven g κ q q' b c) := by
  have hg := h.proper
  have kv : ∀ {a k : Char}, ValidPair [a] b → k ∈ PyStr.replaceX [a] → k = 'v' → 'v' ∉ b := fun hv hk e => by
    obtain rfl := (mem_replaceX hk).1 e
    exact noV_of_valid hv
  have qv : ∀ {k : Char}, k ∈ ['t','v','x','y','z'] → ValidPair (varOf k) b → k = 'v' → 'v' ∉ b := fun _ hb e => by
    subst e; exact noV_of_valid hb
  have mem : ∀ {k a : Char}, varOf k = [a] → k ∈ PyStr.replaceX [a] := fun {k a} e => varOf_mem e
  have cv : ∀ a a', ValidPair [a, a'] b → lw = false ∨ 'v' ∉ [a, a'] ∨ SameFraction g L q q' → ∀ k ∈ PyStr.replaceX [a], ∀ k' ∈ PyStr.replaceX [a'],
      ∀ c, g.Has c → (∃ κ, AlikeGiven g κ q q' b c) → q'.givenCov g L lw b k k' c = q.givenCov g L lw b k k' c := by
    rintro a a' hab hp k hk k' hk' c hc ⟨κ, hA⟩
    obtain ⟨v0, v1⟩ := validPair_sub hab
    have hne : a ≠ a' := by
      have := varPairs_mem hab
      simp only [varPairs, List.mem_cons, Prod.mk.injEq, List.not_mem_nil, or_false] at this
      rintro rfl
      rcases this with ⟨rfl, e⟩ | ⟨rfl, e⟩ | ⟨rfl, e⟩ | ⟨rfl, e⟩ | ⟨rfl, e⟩ | ⟨rfl, e⟩ <;> exact absurd e (by decide)
    refine hA.givenCov h.ok h'.ok hg h.lightNonneg h.light h'.light (fun e e' => hne ?_) ?_ (hp.imp_right (Or.imp_left fun e => ?_))
    · rw [(mem_replaceX hk).1 e, (mem_replaceX hk').1 e']
    · rintro (e | e)
      · exact kv v0 hk e
      · exact kv v1 hk' e
    · simp only [List.mem_cons, List.not_mem_nil, or_false, not_or] at e
      exact ⟨fun k => e.1 ((mem_replaceX hk).1 k).symm, fun k => e.2 ((mem_replaceX hk').1 k).symm⟩
  refine ⟨fun k hk hb => ?_, fun j k hk hb ha => ?_, fun a a' hab hp k k' e e' => ?_, fun a a' hab hp ha ha' k k' e e' => ?_⟩
  · obtain ⟨h1, h2, -⟩ := quantity_facts hk
    obtain ⟨M, F, e, i, v⟩ := h.mean _ hb h1
    obtain ⟨M', F', e', i', v'⟩ := h'.mean _ hb h1
    refine ⟨M, M', e, e', i.1, i'.1, fun c hc ⟨g1, g2, κ, hA⟩ => ?_⟩
    rw [i.2 k h2 c hc, i'.2 k h2 c hc, v k h2 c hc g1, v' k h2 c hc g2, hA.mean hg (qv hk hb)]
  · obtain ⟨h1, h2, -⟩ := quantity_facts hk
    obtain ⟨M, F, e, i, v⟩ := h.central _ hb h1 ha.1 j
    obtain ⟨M', F', e', i', v'⟩ := h'.central _ hb h1 ha.2 j
    refine ⟨M, M', e, e', i.1, i'.1, fun c hc ⟨g1, g2, κ, hA⟩ => ?_⟩
    rw [i.2 k h2 c hc, i'.2 k h2 c hc, v k h2 c hc g1, v' k h2 c hc g2, hA.central hg (qv hk hb)]
  · obtain ⟨r, r1, r2, r3⟩ := h.covariance hab
    obtain ⟨r', r1', r2', r3'⟩ := h'.covariance hab
    refine ⟨r, r', r1, r1', r2, r2', fun c hc ⟨g1, g2, hA⟩ => ?_⟩
    rw [r3 k (mem e) k' (mem e') c hc g1, r3' k (mem e) k' (mem e') c hc g2, cv a a' hab hp k (mem e) k' (mem e') c hc hA]
  · obtain ⟨r, r1, r2, r3⟩ := h.correlation hab ha.1 ha'.1
    obtain ⟨r', r1', r2', r3'⟩ := h'.correlation hab ha.2 ha'.2
    obtain ⟨v0, v1⟩ := validPair_sub hab
    refine ⟨r, r', r1, r1', r2, r2', fun c hc ⟨g1, g2, hA⟩ => ?_⟩
    obtain ⟨κ, hA'⟩ := hA
    rw [r3 k (mem e) k' (mem e') c hc g1, r3' k (mem e) k' (mem e') c hc g2, cv a a' hab hp k (mem e) k' (mem e') c hc ⟨κ, hA'⟩]
    unfold Pop.variance
    rw [hA'.central hg (kv v0 (mem e)), hA'.central hg (kv v1 (mem e'))]

theorem SameWhere.weaken {ok ok' : Cell → Prop} {s i : List ℕ} {r r' : Py (Arr Num)} {w : PyStr} (h : SameWhere ok s i r r' g w)
    (e : ∀ c, ok' c → ok c) : SameWhere ok' s i r r' g w := by
  obtain ⟨p, p', h1, h2, h3, h4, h5⟩ := h
  exact ⟨p, p', h1, h2, h3, h4, fun c hc hk => h5 c hc (e c hk)⟩

theorem SameGiven.weaken {ask ask' pairs pairs' : PyStr → Prop} {good good' : Cell → Prop} (h : SameGiven o o' g lw b ask pairs good)
    (ha : ∀ a, ask' a → ask a) (hp : ∀ a, pairs' a → pairs a) (hg : ∀ c, good' c → good c) : SameGiven o o' g lw b ask' pairs' good' :=
  ⟨fun k hk hb => (h.mean k hk hb).weaken hg, fun j k hk hb e => (h.central j k hk hb (ha _ e)).weaken hg,
    fun a a' hab e k k' e1 e2 => (h.covariance a a' hab (hp _ e) k k' e1 e2).weaken hg,
    fun a a' hab e i i' k k' e1 e2 => (h.correlation a a' hab (hp _ e) (ha _ i) (ha _ i') k k' e1 e2).weaken hg⟩

/-! ### L-moments of any two objects -/

theorem AlikeGiven.move (h : AlikeGiven g κ q q' b c) {d : Cell} (e : coords b d = coords b c) : AlikeGiven g κ q q' b d :=
  ⟨h.pos, fun d' hd e' => h.joint d' hd (e'.trans e), fun hv φ d' hd e' => h.vel hv φ d' hd (e'.trans e)⟩

theorem amount_move {d : Cell} (hb : coords b c = coords b d) : q.amount g L lw b c = q.amount g L lw b d := by
  unfold Pop.amount
  simp only [hb]

theorem lmoments_given {ask : PyStr → Prop} {good : Cell → Prop} (hgood : ∀ c d, coords b d = coords b c → good c → good d)
    (hD : SameDistributionsGiven o o' g lw b ask good)
    (h : ∀ k ∈ ['t','v','z'], ValidPair [k] b → ∀ j : ℕ, 1 ≤ j → ∃ A r, o.getP (distStr [k] b) false lw = .ok A ∧
      o.getLMoment (distStr [k] b) j lw = .ok r ∧ r.shape = g.shapeOf b ∧ ∀ c, g.Has c → ∀ π : ℕ → ℝ,
        (∀ i < g.bins k, A.get (i :: coords b c) = .fin (π i)) → r.get (coords b c) = .fin (lmoment (g.bins k) (g.edge k) π j))
    (h' : ∀ k ∈ ['t','v','z'], ValidPair [k] b → ∀ j : ℕ, 1 ≤ j → ∃ A r, o'.getP (distStr [k] b) false lw = .ok A ∧
      o'.getLMoment (distStr [k] b) j lw = .ok r ∧ r.shape = g.shapeOf b ∧ ∀ c, g.Has c → ∀ π : ℕ → ℝ,
        (∀ i < g.bins k, A.get (i :: coords b c) = .fin (π i)) → r.get (coords b c) = .fin (lmoment (g.bins k) (g.edge k) π j)) :
    SameLMomentsGiven o o' g lw b ask good := by
  intro k hk hab ha j hj
  have hb : ValidPair [k] b := .inr hab
  have ne : b ≠ [] := (by decide : ∀ vw ∈ conditionals, vw.2 ≠ []) _ hab
  obtain ⟨A, r, a1, a2, a3, a4⟩ := h k hk hb j hj
  obtain ⟨A', r', b1, b2, b3, b4⟩ := h' k hk hb j hj
  rw [distStr, if_neg ne] at a1 a2 b1 b2
  obtain ⟨x, x', h1, h2, -, -, h3⟩ := hD false _ hab ha
  obtain rfl : _ = A := Except.ok.inj (h1.symm.trans a1)
  obtain rfl : _ = A' := Except.ok.inj (h2.symm.trans b1)
  refine ⟨x, h1, r, r', a2, b2, a3, b3, fun c hc ⟨hgc, hA⟩ => ?_⟩
  choose! π hπ using hA
  rw [List.nil_append, a4 c hc π hπ, b4 c hc π fun i hi => ?_]
  obtain ⟨d, hd, d1, d2⟩ := cell_at hb hk hc hi
  have := h3 d hd (hgood c d d2 hgc)
  rw [List.nil_append, coords_condStr, d1, d2, List.singleton_append] at this
  rw [← this, hπ i hi]

/-! ### Plain components -/

section
variable {cube cube' : IFUCube} {stored stored' : Arr Num} {ρ ρ' : Cell → ℝ}

theorem tablePop_shines (h : BaseIs cube stored g ρ L) : (tablePop g ρ).Shines g L ↔ 0 < totalLight g L (massP g ρ) := by
  unfold Pop.Shines
  rw [Pop.lightOf_eq h.proper (tablePop_ok h.proper h.nonneg), tablePop_light h.proper]

theorem tablePop_fraction (h : BaseIs cube stored g ρ L) (h' : BaseIs cube' stored' g ρ' L) : SameFraction g L (tablePop g ρ) (tablePop g ρ') := by
  unfold SameFraction
  simp only [Pop.lightOf_eq h.proper (tablePop_ok h.proper h.nonneg), Pop.lightOf_eq h.proper (tablePop_ok h.proper h'.nonneg), tablePop_light h.proper]
  ring

theorem tablePop_ratio (h : BaseIs cube stored g ρ L) (hT : lw = true → 0 < totalLight g L (massP g ρ)) {k : Char} (hkb : k = 'v' → 'v' ∉ b)
    (φ : ℝ → ℝ) (c : Cell) (h0 : (tablePop g ρ).amount g L lw b c ≠ 0) : g.condWt (wtdP g L (massP g ρ) lw) b c ≠ 0 ∧
      g.marg (fun d => φ (g.value k d) * wtdP g L (massP g ρ) lw d) b c / g.condWt (wtdP g L (massP g ρ) lw) b c =
        (tablePop g ρ).num g L lw b k φ c / (tablePop g ρ).norm g L lw b c := by
  have hok := tablePop_ok h.proper h.nonneg
  have hT0 : (if lw then totalLight g L (massP g ρ) else 1) ≠ 0 := by
    split
    · next e => exact (hT e).ne'
    · exact one_ne_zero
  have e1 : g.marg (fun d => φ (g.value k d) * wtdP g L (massP g ρ) lw d) b c =
      (tablePop g ρ).num g L lw b k φ c / (if lw then totalLight g L (massP g ρ) else 1) := by
    rw [tablePop_num h.proper h.nonneg hkb, ← marg_div_const]
    congr 1; funext d
    rw [wtd_wt, mul_div_assoc, mul_div_assoc, mul_div_assoc]
  rw [e1]
  refine ratio_norm hT0 (fun e => by simp [e]) ?_ (fun e e' => ?_) h0
  · rw [Pop.amount_eq h.proper hok, tablePop_marg h.proper ρ (fun d => Pop.wt L lw d) (fun _ _ => rfl), ← marg_div_const]
    congr 1; funext d
    rw [wtd_wt]
  · subst e e'
    rw [amount_nil_light h.proper hok, Pop.lightOf_eq h.proper hok, tablePop_light h.proper, if_pos rfl]

theorem BaseIs.popAt (h : BaseIs cube stored g ρ L) (hl : lw = true → (tablePop g ρ).Shines g L) (b : PyStr) :
    PopAt (obj (baseSelf cube stored)) (tablePop g ρ) g L lw b (fun _ => True) (fun c => (tablePop g ρ).amount g L lw b c ≠ 0 ∧
      (b = [] → lw = false → (tablePop g ρ).amount g L false [] c = 1)) := by
  have hok := tablePop_ok h.proper h.nonneg
  have hT := fun e => (tablePop_shines h).1 (hl e)
  have hnorm : ∀ c, (b = [] → lw = false → (tablePop g ρ).amount g L false [] c = 1) →
      (tablePop g ρ).norm g L lw b c = (tablePop g ρ).amount g L lw b c := fun c h1 => by
    unfold Pop.norm
    split
    · next e =>
      obtain ⟨rfl, rfl⟩ := e
      rw [h1 rfl rfl]
    · rfl
  refine ⟨h.proper, h.cubeIs, hok, tablePop_poly h.proper h.nonneg, h.lightNonneg, hl,
    fun c _ h0 => h0, fun a hab h1 => ?_, fun a hab h1 _ j => ?_, fun a hab h2 => ?_⟩
  · obtain ⟨M, F, e, i, v⟩ := (plain_says (ok := True) none h hl hab h1).mean
    exact ⟨M, F, e, i, fun k hk c hc h0 => by rw [v k hk c hc h0.1, hnorm c h0.2]; rfl⟩
  · obtain ⟨r, hr, hr'⟩ := (h.std hT b).central a hab h1 j
    refine ⟨r, _, hr, hr', fun k hk c hc h0 => ?_⟩
    have hkb : k = 'v' → 'v' ∉ b := by
      rintro rfl
      have := noV_of_var hab h1 hk
      subst this
      exact noV_of_valid hab
    have hval := fun φ => tablePop_ratio h hT (b := b) hkb φ c h0.1
    have hμ : meanM g (wtdP g L (massP g ρ) lw) (g.condWt (wtdP g L (massP g ρ) lw) b) k b c = (tablePop g ρ).mean g L lw b k c := by
      unfold meanM
      rw [(hval fun x => x).2, hnorm c h0.2]
      rfl
    have hl : g.marg (fun d => (g.value k d - meanM g (wtdP g L (massP g ρ) lw) (g.condWt (wtdP g L (massP g ρ) lw) b) k b d) ^ j *
          wtdP g L (massP g ρ) lw d) b c =
        g.marg (fun d => (g.value k d - (tablePop g ρ).mean g L lw b k c) ^ j * wtdP g L (massP g ρ) lw d) b c :=
      marg_congr fun d _ e => by rw [respects_meanM (respects_condWt _ b) k d c e, hμ]
    show expectM g _ _ (fun d => (g.value k d - meanM g (wtdP g L (massP g ρ) lw) (g.condWt (wtdP g L (massP g ρ) lw) b) k b d) ^ j) b c = _
    unfold expectM
    rw [if_neg (hval fun x => x).1, hl, (hval fun x => (x - (tablePop g ρ).mean g L lw b k c) ^ j).2, hnorm c h0.2]
    rfl
  · obtain ⟨A, hA, hA'⟩ := (h.std hT b).tab a hab
    refine ⟨A, hA, hA'.1, fun c hc => (hA'.2 c hc).trans ?_⟩
    have e := fun w => (tablePop_marginal (lw := lw) (L := L) h.proper h.nonneg w c).symm.trans (Pop.marginal_eq h.proper hok w c)
    unfold tab Grid.condWt
    rw [e, e]

theorem BaseIs.cond_is (h : BaseIs cube stored g ρ L) (density : Bool) (hl : lw = true → (tablePop g ρ).Shines g L) {a b : PyStr}
    (hab : (a, b) ∈ conditionals) : Gives (getP (baseSelf cube stored) (condStr a b) density lw) g (condStr a b)
      (fun c => (tablePop g ρ).cond g L lw a b c / .fin (dvol g density a c)) := by
  refine Gives.congr (getP_cond_of_contract (h.contract lw fun e => (tablePop_shines h).1 (hl e)) density (a, b) hab
      (baseLogP_none _ _ (condStr_not_marginal a b))) fun c hc => ?_
  have hd := dvol_pos h.proper hc density a
  unfold Pop.cond condTable
  rw [tablePop_marginal h.proper h.nonneg, tablePop_marginal h.proper h.nonneg]
  split
  · simp
  · rw [Num.fin_div _ _ hd.ne']

theorem SameWhere.of_gives {r r' : Py (Arr Num)} {w : PyStr} {f f' : Cell → Num} {ok : Cell → Prop} (h : Gives r g w f) (h' : Gives r' g w f')
    (e : ∀ c, g.Has c → ok c → f c = f' c) : SameWhere ok [] [] r r' g w := by
  obtain ⟨p, h1, h2, h3⟩ := h
  obtain ⟨p', h1', h2', h3'⟩ := h'
  refine ⟨p, p', h1, h1', h2, h2', fun c hc hk => ?_⟩
  rw [List.nil_append, h3 c hc, h3' c hc, e c hc hk]

/-- Plain components: all 47 conditional distributions, by mass and by light, depend only on the stars that meet the condition. -/
theorem C97_plain_distributions (h : BaseIs cube stored g ρ L) (h' : BaseIs cube' stored' g ρ' L) (hl : lw = true → (tablePop g ρ).Shines g L)
    (hl' : lw = true → (tablePop g ρ').Shines g L) (b : PyStr) :
    SameDistributionsGiven (obj (baseSelf cube stored)) (obj (baseSelf cube' stored')) g lw b (fun _ => True)
      (fun c => ∃ κ, AlikeGiven g κ (tablePop g ρ) (tablePop g ρ') b c) := fun density a hab _ =>
  SameWhere.of_gives (h.cond_is density hl hab) (h'.cond_is density hl' hab) fun c _ ⟨κ, hA⟩ => by
    rw [hA.cond (tablePop_ok h.proper h.nonneg) (tablePop_ok h.proper h'.nonneg) h.proper h.lightNonneg hl hl' hab (.inr (.inr (tablePop_fraction h h')))]

/-- So do all their moments: means, central moments of all orders, covariances, correlations and L-moments. -/
theorem C97_plain_moments (h : BaseIs cube stored g ρ L) (h' : BaseIs cube' stored' g ρ' L) (hl : lw = true → (tablePop g ρ).Shines g L)
    (hl' : lw = true → (tablePop g ρ').Shines g L) (b : PyStr) (hb : b ≠ []) :
    SameGiven (obj (baseSelf cube stored)) (obj (baseSelf cube' stored')) g lw b (fun _ => True) (fun _ => True)
      (fun c => (tablePop g ρ).amount g L lw b c ≠ 0 ∧ ∃ κ, AlikeGiven g κ (tablePop g ρ) (tablePop g ρ') b c) ∧
    SameLMomentsGiven (obj (baseSelf cube stored)) (obj (baseSelf cube' stored')) g lw b (fun _ => True)
      (fun c => ∃ κ, AlikeGiven g κ (tablePop g ρ) (tablePop g ρ') b c) := by
  refine ⟨?_, lmoments_given (fun c d e ⟨κ, hA⟩ => ⟨κ, hA.move e⟩) (C97_plain_distributions h h' hl hl' b) (fun k hk hv j hj => ?_)
    (fun k hk hv j hj => ?_)⟩
  · have key := popAt_given (h.popAt hl b) (h'.popAt hl' b)
    have good : ∀ c, ((tablePop g ρ).amount g L lw b c ≠ 0 ∧ ∃ κ, AlikeGiven g κ (tablePop g ρ) (tablePop g ρ') b c) →
        ((tablePop g ρ).amount g L lw b c ≠ 0 ∧ (b = [] → lw = false → (tablePop g ρ).amount g L false [] c = 1)) ∧
        ((tablePop g ρ').amount g L lw b c ≠ 0 ∧ (b = [] → lw = false → (tablePop g ρ').amount g L false [] c = 1)) ∧
        ∃ κ, AlikeGiven g κ (tablePop g ρ) (tablePop g ρ') b c := fun c ⟨h0, κ, hA⟩ =>
      ⟨⟨h0, fun e => absurd e hb⟩, ⟨by rw [hA.amount_b h.proper]; exact mul_ne_zero hA.pos.ne' h0, fun e => absurd e hb⟩, κ, hA⟩
    exact key.weaken (fun _ _ => ⟨trivial, trivial⟩) (fun _ _ => .inr (.inr (tablePop_fraction h h'))) good
  · exact lmoments_of_tab (o := obj (baseSelf cube stored)) h.proper h.cubeIs hk hv ((h.std (fun e => (tablePop_shines h).1 (hl e)) b).tab _ hv)
      (respects_condWt _ b) j hj
  · exact lmoments_of_tab (o := obj (baseSelf cube' stored')) h.proper h'.cubeIs hk hv ((h'.std (fun e => (tablePop_shines h').1 (hl' e)) b).tab _ hv)
      (respects_condWt _ b) j hj

end

/-! ### Parametric components -/

theorem ingr_marginal (h : ParamIs p g m L) (w : PyStr) (c : Cell) : (m.pop g).marginal g L lw w c = m.marginal g L lw w c := by
  rw [Pop.marginal_eq h.proper h.pop_ok, ingr_cells, ← paramMarg_eq h.proper]
  rfl

theorem ParamIs.amount_t (h : ParamIs p g m L) {c : Cell} (hc : g.Has c) : (m.pop g).amount g L false ['t'] c = m.probT g c := by
  rw [Pop.amount_eq h.proper h.pop_ok]
  simp only [Pop.wt, Bool.false_eq_true, if_false, one_mul]
  rw [ingr_cells]
  exact marg_spread_t h.norm h.proper hc

theorem ParamIs.amount_tx (h : ParamIs p g m L) {c : Cell} (hc : g.Has c) :
    (m.pop g).amount g L false ['t','x'] c = m.probT g c * m.probX g c := by
  rw [Pop.amount_eq h.proper h.pop_ok]
  simp only [Pop.wt, Bool.false_eq_true, if_false, one_mul]
  rw [ingr_cells]
  exact marg_spread_tx h.norm h.proper hc

theorem sumTXZ_ne {f : Cell → ℝ} (hg : g.Proper) (h : Ingredients.sumTXZ g f ≠ 0) : ∃ d, g.Has d ∧ f d ≠ 0 := by
  by_contra hn
  push Not at hn
  refine h ((sumTXZ_has hg (f' := fun _ => 0) hn).trans ?_)
  simp [Ingredients.sumTXZ]

/-- The ingredients themselves are alike where there are stars. -/
theorem alike_probX (h : ParamIs p g m L) (h' : ParamIs p' g m' L) (hA : AlikeGiven g κ (m.pop g) (m'.pop g) ['t'] c) (hc : g.Has c)
    (h0 : (m.pop g).amount g L false ['t'] c ≠ 0) : m'.probX g c = m.probX g c := by
  have e1 := hA.amount_b (L := L) (lw := false) h.proper
  have e2 := hA.amount (L := L) (lw := false) h.proper (w := ['t','x']) (fun d e => by simp [coords, coord1] at e ⊢; exact e.1) (by decide)
  rw [h.amount_t hc, h'.amount_t hc] at e1
  rw [h.amount_tx hc, h'.amount_tx hc, e1] at e2
  rw [h.amount_t hc] at h0
  have := hA.pos.ne'
  rw [mul_assoc] at e2
  exact mul_left_cancel₀ h0 (mul_left_cancel₀ this e2)

theorem alike_probZ (h : ParamIs p g m L) (h' : ParamIs p' g m' L) (hA : AlikeGiven g κ (m.pop g) (m'.pop g) ['t','x'] c) (hc : g.Has c)
    (h0 : (m.pop g).amount g L false ['t','x'] c ≠ 0) : m'.probZ g c = m.probZ g c := by
  have e1 := hA.amount_b (L := L) (lw := false) h.proper
  have e2 := hA.stars (by decide) hc rfl
  rw [h.amount_tx hc, h'.amount_tx hc] at e1
  simp only [ingr_stars, Ingredients.probTXZ] at e2
  rw [h.amount_tx hc] at h0
  rw [e1] at e2
  have := hA.pos.ne'
  rw [mul_assoc] at e2
  exact mul_left_cancel₀ h0 (mul_left_cancel₀ this e2)

theorem alike_probV (h : ParamIs p g m L) (hA : AlikeGiven g κ (m.pop g) (m'.pop g) ['t','x'] c) (hc : g.Has c)
    (h0 : (m.pop g).amount g L false ['t','x'] c ≠ 0) : m'.probV g c = m.probV g c := by
  unfold Pop.amount at h0
  rw [if_neg (by decide)] at h0
  obtain ⟨d, hd, h1⟩ := sumTXZ_ne h.proper h0
  have e : coords ['t','x'] d = coords ['t','x'] c := by
    by_contra hn
    rw [if_neg hn] at h1
    exact h1 rfl
  rw [if_pos e] at h1
  simp only [Pop.wt, Bool.false_eq_true, if_false, one_mul, ingr_stars] at h1
  have hd' : g.Has { d with v := c.v } := ⟨hd.1, hc.2.1, hd.2.2⟩
  have e' : coords ['t','x'] { d with v := c.v } = coords ['t','x'] c := e
  have a1 := hA.joint _ hd' e'
  have a2 := hA.stars (by decide) hd' e'
  simp only [ingr_stars] at a2
  have hz : m.probTXZ g { d with v := c.v } ≠ 0 := h1
  have q1 : (m'.pop g).joint { d with v := c.v } = m'.probTXZ g { d with v := c.v } * m'.probV g { d with v := c.v } := rfl
  have q2 : (m.pop g).joint { d with v := c.v } = m.probTXZ g { d with v := c.v } * m.probV g { d with v := c.v } := rfl
  rw [q1, q2, a2, mul_assoc] at a1
  have := mul_left_cancel₀ hz (mul_left_cancel₀ hA.pos.ne' a1)
  simp only [coords, coord1, List.flatMap_cons, List.flatMap_nil] at e
  simp at e
  obtain ⟨e1, e2, e3⟩ := e
  unfold Ingredients.probV at this ⊢
  rw [← e1, ← e2, ← e3]
  exact this

theorem condStr_go {r r' : Py (Arr Num)} {a b : PyStr} {ok : Cell → Prop} {x x' : Arr Num} (e : r = .ok x) (e' : r' = .ok x')
    (k : x.shape = g.shapeOf a ++ g.shapeOf b) (k' : x'.shape = g.shapeOf a ++ g.shapeOf b)
    (hv : ∀ c, g.Has c → ok c → x.get (coords a c ++ coords b c) = x'.get (coords a c ++ coords b c)) : SameWhere ok [] [] r r' g (condStr a b) :=
  ⟨_, _, e, e', by rw [k, shapeOf_condStr]; rfl, by rw [k', shapeOf_condStr]; rfl, fun c hc h => by
    rw [List.nil_append, coords_condStr]; exact hv c hc h⟩

theorem alike_cond_ite (h : ParamIs p g m L) (h' : ParamIs p' g m' L) (hl : lw = true → (m.pop g).Shines g L) (hl' : lw = true → (m'.pop g).Shines g L)
    {a : PyStr} (hA : AlikeGiven g κ (m.pop g) (m'.pop g) b c) (hab : (a, b) ∈ conditionals)
    (hf : lw = false ∨ 'v' ∉ a ∨ SameFraction g L (m.pop g) (m'.pop g)) (V : ℝ) :
    (if m.marginal g L lw b c = 0 then Num.nan else .fin (m.marginal g L lw (unionStr a b) c / m.marginal g L lw b c / V)) =
      if m'.marginal g L lw b c = 0 then Num.nan else .fin (m'.marginal g L lw (unionStr a b) c / m'.marginal g L lw b c / V) := by
  have e := hA.cond h.pop_ok h'.pop_ok h.proper h.lightNonneg hl hl' hab hf
  have e0 := hA.marginal_zero h.pop_ok h'.pop_ok h.proper h.lightNonneg hl hl'
  unfold Pop.cond at e
  rw [ingr_marginal h, ingr_marginal h'] at e0
  rw [ingr_marginal h, ingr_marginal h', ingr_marginal h, ingr_marginal h'] at e
  by_cases hz : m.marginal g L lw b c = 0
  · rw [if_pos hz, if_pos (e0.2 hz)]
  · have hz' : ¬ m'.marginal g L lw b c = 0 := fun k => hz (e0.1 k)
    rw [if_neg hz, if_neg hz'] at *
    injection e with e
    rw [e]

theorem alike_weight (hA : AlikeGiven g κ (m.pop g) (m'.pop g) b c) {w : PyStr} (hw : ∀ d, coords w d = coords w c → coords b d = coords b c) :
    ∃ S, g.marg (m.weight g L true) w c = S / (m.pop g).lightOf g L ['v'] ∧ g.marg (m'.weight g L true) w c = κ * S / (m'.pop g).lightOf g L ['v'] := by
  have key : ∀ m : Ingredients, g.marg (m.weight g L true) w c =
      g.sumCells (fun d => if coords w d = coords w c then L d.t d.z * (m.pop g).joint d else 0) / (m.pop g).lightOf g L ['v'] := fun m => by
    have e : m.weight g L true = fun d => L d.t d.z * (m.pop g).joint d / (m.pop g).lightOf g L ['v'] := by
      funext d
      simp only [Ingredients.weight, Pop.lightOf, if_true, List.mem_singleton]
      rfl
    rw [e, marg_div_const]
    rfl
  exact ⟨_, key m, by rw [key m', hA.sumJ hw]⟩

theorem coords_tvx {c d : Cell} (e : coords ['t','v','x'] d = coords ['t','v','x'] c) : coords ['t','x'] d = coords ['t','x'] c := by
  simp only [coords, coord1, List.flatMap_cons, List.flatMap_nil] at e ⊢
  simp at e ⊢
  exact ⟨e.1, e.2.2⟩

theorem alike_vtx_light (h : ParamIs p g m L) (h' : ParamIs p' g m' L) (hl : (m.pop g).Shines g L) (hl' : (m'.pop g).Shines g L)
    (hA : AlikeGiven g κ (m.pop g) (m'.pop g) ['t','x'] c) (V : ℝ) :
    (if g.marg (m.weight g L true) ['t','x'] c = 0 then Num.nan else
      .fin (m.marginal g L true ['t','v','x'] c / g.marg (m.weight g L true) ['t','x'] c / V)) =
    if g.marg (m'.weight g L true) ['t','x'] c = 0 then Num.nan else
      .fin (m'.marginal g L true ['t','v','x'] c / g.marg (m'.weight g L true) ['t','x'] c / V) := by
  have n := h.pop_ok.light_ne h.proper h.lightNonneg hl ['v']
  have n' := h'.pop_ok.light_ne h.proper h.lightNonneg hl' ['v']
  obtain ⟨S, a1, a1'⟩ := alike_weight (L := L) hA (w := ['t','x']) fun _ e => e
  obtain ⟨S', a2, a2'⟩ := alike_weight (L := L) hA (w := ['t','v','x']) fun _ e => coords_tvx e
  have b : ∀ m : Ingredients, m.marginal g L true ['t','v','x'] c = g.marg (m.weight g L true) ['t','v','x'] c := fun m => by
    unfold Ingredients.marginal
    rw [if_pos (by decide)]
    rfl
  rw [a1, a1', b, b, a2, a2', ratio_same n n' _ _ hA.pos.ne']
  refine if_congr ?_ rfl rfl
  simp [div_eq_zero_iff, n, n', hA.pos.ne']

/-- Parametric components: conditional distributions by mass depend only on the stars that meet the condition, where there are such. So do
those by light, except of velocity (`C97_velocity_wrong`): these need the same fraction of all light in the velocity range of the grid. The
distribution of velocity given age and position is no exception. Missing: velocities by light, otherwise. -/
theorem C97_parametric_distributions_partial (h : ParamIs p g m L) (h' : ParamIs p' g m' L) (hl : lw = true → (m.pop g).Shines g L)
    (hl' : lw = true → (m'.pop g).Shines g L) (b : PyStr) :
    SameDistributionsGiven (obj p.self) (obj p'.self) g lw b
      (fun a => lw = false ∨ 'v' ∉ a ∨ (a = ['v'] ∧ b = ['t','x']) ∨ SameFraction g L (m.pop g) (m'.pop g))
      (fun c => (m.pop g).amount g L lw b c ≠ 0 ∧ ∃ κ, AlikeGiven g κ (m.pop g) (m'.pop g) b c) := by
  intro density a hab hf
  have ls : lw = true → Shines g m L := fun e => param_shines.1 (hl e)
  have ls' : lw = true → Shines g m' L := fun e => param_shines.1 (hl' e)
  by_cases ho : (a, b) ∈ [(['x'],['t']), (['v'],['t','x']), (['z'],['t','x'])]
  · simp only [List.mem_cons, Prod.mk.injEq, List.not_mem_nil, or_false] at ho
    cases lw
    · obtain ⟨⟨q1, i1, i2, i3⟩, ⟨q2, j1, j2, j3⟩, ⟨q3, k1, k2, k3⟩⟩ := C32_ingredients h density
      obtain ⟨⟨q1', i1', i2', i3'⟩, ⟨q2', j1', j2', j3'⟩, ⟨q3', k1', k2', k3'⟩⟩ := C32_ingredients h' density
      rcases ho with ⟨rfl, rfl⟩ | ⟨rfl, rfl⟩ | ⟨rfl, rfl⟩
      · exact condStr_go i1 i1' i2 i2' fun c hc ⟨h0, κ, hA⟩ => (i3 c hc).trans (by rw [← alike_probX h h' hA hc h0]; exact (i3' c hc).symm)
      · exact condStr_go j1 j1' j2 j2' fun c hc ⟨h0, κ, hA⟩ => (j3 c hc).trans (by rw [← alike_probV h hA hc h0]; exact (j3' c hc).symm)
      · exact condStr_go k1 k1' k2 k2' fun c hc ⟨h0, κ, hA⟩ => (k3 c hc).trans (by rw [← alike_probZ h h' hA hc h0]; exact (k3' c hc).symm)
    · obtain ⟨⟨q1, i1, i2, i3⟩, ⟨q2, j1, j2, j3⟩, ⟨q3, k1, k2, k3⟩⟩ := C32_light_ingredients h density (ls rfl)
      obtain ⟨⟨q1', i1', i2', i3'⟩, ⟨q2', j1', j2', j3'⟩, ⟨q3', k1', k2', k3'⟩⟩ := C32_light_ingredients h' density (ls' rfl)
      rcases ho with ⟨rfl, rfl⟩ | ⟨rfl, rfl⟩ | ⟨rfl, rfl⟩
      · refine condStr_go i1 i1' i2 i2' fun c hc ⟨h0, κ, hA⟩ => (i3 c hc).trans (Eq.trans ?_ (i3' c hc).symm)
        exact alike_cond_ite h h' hl hl' (a := ['x']) hA hab (.inr (.inl (by decide))) _
      · refine condStr_go j1 j1' j2 j2' fun c hc ⟨h0, κ, hA⟩ => (j3 c hc).trans (Eq.trans ?_ (j3' c hc).symm)
        exact alike_vtx_light h h' (hl rfl) (hl' rfl) hA _
      · refine condStr_go k1 k1' k2 k2' fun c hc ⟨h0, κ, hA⟩ => (k3 c hc).trans (Eq.trans ?_ (k3' c hc).symm)
        exact alike_cond_ite h h' hl hl' (a := ['z']) hA hab (.inr (.inl (by decide))) _
  · obtain ⟨r, h1, h2, h3⟩ := C32_conditionals h density lw ls a b hab ho
    obtain ⟨r', h1', h2', h3'⟩ := C32_conditionals h' density lw ls' a b hab ho
    refine condStr_go h1 h1' h2 h2' fun c hc ⟨h0, κ, hA⟩ => (h3 c hc).trans (Eq.trans ?_ (h3' c hc).symm)
    refine alike_cond_ite h h' hl hl' hA hab (hf.imp_right (Or.imp_right fun e => e.resolve_left ?_)) _
    rintro ⟨rfl, rfl⟩
    exact ho (by decide)

/-- So do their moments, where there are such stars: all means and central moments, by mass and by light. Covariances with velocity by light again
need the same fraction of all light in the velocity range of the grid. -/
theorem C97_parametric_moments_partial (h : ParamIs p g m L) (h' : ParamIs p' g m' L) (hf : p.f2 = 1) (hf' : p'.f2 = 1)
    (hl : lw = true → (m.pop g).Shines g L) (hl' : lw = true → (m'.pop g).Shines g L) (b : PyStr) :
    SameGiven (obj p.self) (obj p'.self) g lw b (fun _ => True) (fun a => lw = false ∨ 'v' ∉ a ∨ SameFraction g L (m.pop g) (m'.pop g))
      (fun c => (m.pop g).amount g L lw b c ≠ 0 ∧ ∃ κ, AlikeGiven g κ (m.pop g) (m'.pop g) b c) ∧
    SameLMomentsGiven (obj p.self) (obj p'.self) g lw b
      (fun a => lw = false ∨ 'v' ∉ a ∨ (a = ['v'] ∧ b = ['t','x']) ∨ SameFraction g L (m.pop g) (m'.pop g))
      (fun c => (m.pop g).amount g L lw b c ≠ 0 ∧ ∃ κ, AlikeGiven g κ (m.pop g) (m'.pop g) b c) := by
  refine ⟨?_, lmoments_given (fun c d e ⟨h0, κ, hA⟩ => ⟨by rwa [amount_move e], κ, hA.move e⟩) (C97_parametric_distributions_partial h h' hl hl' b)
    (fun k hk hv j hj => h.lmoments_of hl hk hv j hj) (fun k hk hv j hj => h'.lmoments_of hl' hk hv j hj)⟩
  exact (popAt_given (h.popAt hf hl b) (h'.popAt hf' hl' b)).weaken (fun _ _ => ⟨trivial, trivial⟩) (fun _ e => e) fun c ⟨h0, κ, hA⟩ =>
    ⟨h0, by rw [hA.amount_b h.proper]; exact mul_ne_zero hA.pos.ne' h0, κ, hA⟩

/-! ### Mixtures -/

section
variable {mx mx' : Mix} {n n' : ℕ} {ω ω' : ℕ → ℝ} {pop pop' : ℕ → Pop}

/-- Mixtures, possibly of different components: conditional distributions depend only on the stars that meet the condition. Missing: those of
velocity by light, unless the fraction of all light in the velocity range of the grid is the same. -/
theorem C97_mixture_distributions_partial (h : MixOf mx g n ω pop L) (h' : MixOf mx' g n' ω' pop' L)
    (hl : lw = true → (mixPop n ω pop).Shines g L) (hl' : lw = true → (mixPop n' ω' pop').Shines g L) (b : PyStr) :
    SameDistributionsGiven (Mix.obj mx) (Mix.obj mx') g lw b
      (fun a => lw = false ∨ 'v' ∉ a ∨ SameFraction g L (mixPop n ω pop) (mixPop n' ω' pop'))
      (fun c => ∃ κ, AlikeGiven g κ (mixPop n ω pop) (mixPop n' ω' pop') b c) := by
  intro density a hab hf
  obtain ⟨r, h1, h2, h3⟩ := C65_conditionals h density lw hl a b hab
  obtain ⟨r', h1', h2', h3'⟩ := C65_conditionals h' density lw hl' a b hab
  exact condStr_go h1 h1' h2 h2' fun c hc ⟨κ, hA⟩ => by
    rw [h3 c hc, h3' c hc, hA.cond h.mixOk h'.mixOk h.proper h.lightNonneg hl hl' hab hf]

/-- So do their moments, wherever all members have such stars (elsewhere nan, C29), by mass and by light. Missing: moments by light given the velocity,
which are not those of the mixed stars (C66), and covariances with velocity by light. -/
theorem C97_mixture_moments_partial (h : MixOf mx g n ω pop L) (h' : MixOf mx' g n' ω' pop' L)
    (hl : lw = true → ∀ i < n, (pop i).Shines g L) (hl' : lw = true → ∀ i < n', (pop' i).Shines g L)
    (hm : ∀ (i : ℕ) (hi : i < mx.children.length), IsMember1 g L mx.children[i] (pop i))
    (hm' : ∀ (i : ℕ) (hi : i < mx'.children.length), IsMember1 g L mx'.children[i] (pop' i)) (b : PyStr) (hb : b ≠ []) (hv : lw = false ∨ 'v' ∉ b) :
    SameGiven (Mix.obj mx) (Mix.obj mx') g lw b (fun a => ¬ (a = ['v'] ∧ b = ['t','x','z']))
      (fun a => lw = false ∨ 'v' ∉ a ∨ SameFraction g L (mixPop n ω pop) (mixPop n' ω' pop'))
      (fun c => (∀ i < n, (pop i).amount g L lw b c ≠ 0) ∧ (∀ i < n', (pop' i).amount g L lw b c ≠ 0) ∧
        ∃ κ, AlikeGiven g κ (mixPop n ω pop) (mixPop n' ω' pop') b c) ∧
    SameLMomentsGiven (Mix.obj mx) (Mix.obj mx') g lw b
      (fun a => lw = false ∨ 'v' ∉ a ∨ SameFraction g L (mixPop n ω pop) (mixPop n' ω' pop'))
      (fun c => ∃ κ, AlikeGiven g κ (mixPop n ω pop) (mixPop n' ω' pop') b c) := by
  refine ⟨?_, lmoments_given (fun c d e ⟨κ, hA⟩ => ⟨κ, hA.move e⟩)
    (C97_mixture_distributions_partial h h' (fun e => mix_shines h (hl e)) (fun e => mix_shines h' (hl' e)) b)
    (fun k hk hv j hj => h.lmoments_of hl hk hv j hj) (fun k hk hv j hj => h'.lmoments_of hl' hk hv j hj)⟩
  exact (popAt_given (h.popAt hl hm b hv) (h'.popAt hl' hm' b hv)).weaken (fun _ e => ⟨e, e⟩) (fun _ e => e) fun c ⟨h0, h0', hA⟩ =>
    ⟨⟨h0, fun e => absurd e hb⟩, ⟨h0', fun e => absurd e hb⟩, hA⟩

end

/-! ### Datacubes -/

/-- The spectrum in a pixel of a plain component depends only on the stars in that pixel, in all batch modes. -/
theorem C97_plain_datacube {cube cube' : IFUCube} {stored stored' : Arr Num} {ρ ρ' : Cell → ℝ} {interp : ℕ → (ℕ → ℂ) → ℝ → ℂ} {sp : Spectra}
    {S : ℕ → ℕ → ℕ → ℝ} {n v0 : ℕ} (hI : Interp interp) (h : BaseIs cube stored g ρ L) (h' : BaseIs cube' stored' g ρ' L) (hn : 0 < n)
    (hS : SpectraAre sp g S n n) (h0 : ZeroBin g.nv g.v v0) (hv : VelocityOk g.nv g.v sp.dv v0) (hm : 6 ≤ g.nv) (hc : g.Has c)
    (hA : AlikeGiven g κ (tablePop g ρ) (tablePop g ρ') ['x'] c) : ∀ batch ∈ ["none".toList, "column".toList, "spaxel".toList],
      TimesInPixel κ c.x c.y (evaluateYbar interp (baseSelf cube stored) sp batch) (evaluateYbar interp (baseSelf cube' stored') sp batch) n g.nx g.ny := by
  have hhalf : 4 ≤ Fft.half g.nv := by unfold Fft.half; omega
  obtain ⟨e1, e2, e3, -⟩ := (evaluateYbar_is hI.loc h hn hS h0 hv).2 hhalf
  obtain ⟨e1', e2', e3', -⟩ := (evaluateYbar_is hI.loc h' hn hS h0 hv).2 hhalf
  have hρ : ∀ t < g.nt, ∀ v < g.nv, ∀ z < g.nz, ρ' ⟨t, v, c.x, c.y, z⟩ = κ * ρ ⟨t, v, c.x, c.y, z⟩ := fun t ht v hv z hz => by
    have hd : g.Has ⟨t, v, c.x, c.y, z⟩ := ⟨ht, hv, hc.2.2.1, hc.2.2.2.1, hz⟩
    have := hA.joint _ hd (by simp [coords, coord1])
    simp only [tablePop, ← mul_assoc] at this
    exact mul_right_cancel₀ (cellVolume_pos h.proper hd).ne' this
  have key : ∀ k, ybarFT interp g S ρ' n n v0 sp.dv k c.x c.y = κ * ybarFT interp g S ρ n n v0 sp.dv k c.x c.y := fun k => by
    have := ybarFT_linear (g := g) hI S n n v0 sp.dv κ 0 ρ ρ k c.x c.y
    simp only [zero_mul, add_zero] at this
    rw [← this, ybarFT_eq, ybarFT_eq]
    congr 2
    refine Finset.sum_congr rfl fun t _ => Finset.sum_congr rfl fun z _ => ?_
    have e : ∀ i, ρ' ⟨t, (i + v0) % g.nv, c.x, c.y, z⟩ = κ * ρ ⟨t, (i + v0) % g.nv, c.x, c.y, z⟩ := fun i =>
      hρ t t.2 _ (Nat.mod_lt _ h.proper.nv) z z.2
    simp only [e]
  have go : ∀ {r r' : Py (Arr Num)}, (∃ y, r = .ok y ∧ Is3 y n g.nx g.ny (fun k x y => .fin (ybarFT interp g S ρ n n v0 sp.dv k x y))) →
      (∃ y, r' = .ok y ∧ Is3 y n g.nx g.ny (fun k x y => .fin (ybarFT interp g S ρ' n n v0 sp.dv k x y))) → TimesInPixel κ c.x c.y r r' n g.nx g.ny := by
    rintro r r' ⟨y, a1, a2, a3⟩ ⟨y', b1, b2, b3⟩
    exact ⟨y, y', a1, b1, a2, b2, fun k hk => ⟨_, a3 k hk _ hc.2.2.1 _ hc.2.2.2.1, (b3 k hk _ hc.2.2.1 _ hc.2.2.2.1).trans (congrArg Num.fin (key k))⟩⟩
  intro batch hb
  simp only [List.mem_cons, List.not_mem_nil, or_false] at hb
  rcases hb with rfl | rfl | rfl
  · exact go e1 e1'
  · exact go (e2 rfl) (e2' rfl)
  · exact go (e3 rfl) (e3' rfl)

/-- Where there are stars, their velocities are those of the same normal distribution. -/
theorem alike_normal (h : ParamIs p g m L) (h' : ParamIs p' g m' L) (hA : AlikeGiven g κ (m.pop g) (m'.pop g) b c) (hb : 'v' ∉ b) {d : Cell} (hd : g.Has d)
    (e : coords b d = coords b c) (h0 : m.probTXZ g d ≠ 0) : m'.mu d.t d.x d.y = m.mu d.t d.x d.y ∧ m'.sig d.t d.x d.y = m.sig d.t d.x d.y := by
  have a := hA.vel hb
  have hs := a (fun _ => 1) d hd e
  have key : ∀ φ : ℝ → ℝ, ∫ v, φ v ∂(normal (m'.mu d.t d.x d.y) (m'.sig d.t d.x d.y)) = ∫ v, φ v ∂(normal (m.mu d.t d.x d.y) (m.sig d.t d.x d.y)) := fun φ => by
    have h1 := a φ d hd e
    have h2 : (m'.pop g).stars d = κ * (m.pop g).stars d := hs
    rw [ingr_stars, ingr_stars] at h2
    have h3 : m'.probTXZ g d * ∫ v, φ v ∂(normal (m'.mu d.t d.x d.y) (m'.sig d.t d.x d.y)) =
      κ * (m.probTXZ g d * ∫ v, φ v ∂(normal (m.mu d.t d.x d.y) (m.sig d.t d.x d.y))) := h1
    rw [h2, mul_assoc] at h3
    exact mul_left_cancel₀ h0 (mul_left_cancel₀ hA.pos.ne' h3)
  have hμ := key fun v => v
  rw [normal_mean, normal_mean] at hμ
  have hσ := key fun v => (v - m.mu d.t d.x d.y) ^ 2
  rw [normal_var, ← hμ, normal_var] at hσ
  exact ⟨hμ, (pow_left_inj₀ (h'.norm.sig _ _ _).le (h.norm.sig _ _ _).le (by norm_num)).1 hσ⟩

/-- The spectrum in a pixel of a parametric component depends only on the stars in that pixel, in all batch modes. -/
theorem C97_parametric_datacube {sp : Spectra} {S : ℕ → ℕ → ℕ → ℝ} {n : ℕ} (h : ParamIs p g m L) (h' : ParamIs p' g m' L) (hn : 0 < n)
    (hS : SpectraAre sp g S n n) (hc : g.Has c) (hA : AlikeGiven g κ (m.pop g) (m'.pop g) ['x'] c) :
    ∀ batch ∈ ["none".toList, "column".toList, "spaxel".toList], TimesInPixel κ c.x c.y (p.evaluateYbar sp batch) (p'.evaluateYbar sp batch) n g.nx g.ny := by
  obtain ⟨e1, e2, e3, -⟩ := Param.evaluateYbar_is h hn hS
  obtain ⟨e1', e2', e3', -⟩ := Param.evaluateYbar_is h' hn hS
  have key : ∀ k, Param.ybarOf g m' sp S n n k c.x c.y = κ * Param.ybarOf g m sp S n n k c.x c.y := fun k => by
    simp only [ybarOf_eq, Finset.mul_sum]
    refine Finset.sum_congr rfl fun t _ => Finset.sum_congr rfl fun z _ => ?_
    have hd : g.Has ⟨t, 0, c.x, c.y, z⟩ := ⟨t.2, h.proper.nv, hc.2.2.1, hc.2.2.2.1, z.2⟩
    have hs := hA.stars (by decide) hd (by simp [coords, coord1])
    rw [ingr_stars, ingr_stars] at hs
    rw [hs]
    by_cases h0 : m.probTXZ g ⟨t, 0, c.x, c.y, z⟩ = 0
    · rw [h0]; simp
    · obtain ⟨a1, a2⟩ := alike_normal h h' hA (by decide) hd (by simp [coords, coord1]) h0
      rw [a1, a2, mul_assoc]
  have go : ∀ {r r' : Py (Arr Num)}, (∃ y, r = .ok y ∧ Is3 y n g.nx g.ny (fun k x y => .fin (Param.ybarOf g m sp S n n k x y))) →
      (∃ y, r' = .ok y ∧ Is3 y n g.nx g.ny (fun k x y => .fin (Param.ybarOf g m' sp S n n k x y))) → TimesInPixel κ c.x c.y r r' n g.nx g.ny := by
    rintro r r' ⟨y, a1, a2, a3⟩ ⟨y', b1, b2, b3⟩
    exact ⟨y, y', a1, b1, a2, b2, fun k hk => ⟨_, a3 k hk _ hc.2.2.1 _ hc.2.2.2.1, (b3 k hk _ hc.2.2.1 _ hc.2.2.2.1).trans (congrArg Num.fin (key k))⟩⟩
  intro batch hb
  simp only [List.mem_cons, List.not_mem_nil, or_false] at hb
  rcases hb with rfl | rfl | rfl
  · exact go e1 e1'
  · exact go (e2 rfl) (e2' rfl)
  · exact go (e3 rfl) (e3' rfl)


/-- Mixtures: if in a pixel each member, with its weight, has `κ` times the spectrum, so has the mixture. -/
theorem C97_mixture_datacube {mx mx' : Mix} (Y Y' : ℕ → Arr Num) (sh : List ℕ) (h0 : mx.children ≠ []) (hlen : mx.children.length = mx.weights.length)
    (hlen' : mx'.children.length = mx'.weights.length) (hn : mx'.weights.length = mx.weights.length)
    (hY : ∀ (i : ℕ) (hi : i < mx.children.length), mx.children[i].ybar = some (Y i) ∧ (Y i).shape = sh)
    (hY' : ∀ (i : ℕ) (hi : i < mx'.children.length), mx'.children[i].ybar = some (Y' i) ∧ (Y' i).shape = sh) :
    ∃ y y', mx.evaluateYbar = .ok { mx with ybar := some y } ∧ mx'.evaluateYbar = .ok { mx' with ybar := some y' } ∧ y.shape = sh ∧ y'.shape = sh ∧
      ∀ j, InBox sh j → (∀ (i : ℕ) (hi : i < mx.weights.length), ∃ u u' : ℝ, (Y i).get j = .fin u ∧ (Y' i).get j = .fin u' ∧
        mx'.weights[i] * u' = κ * (mx.weights[i] * u)) → ∃ u : ℝ, y.get j = .fin u ∧ y'.get j = .fin (κ * u) := by
  have h0' : mx'.children ≠ [] := by
    intro e
    rw [e, hn, ← hlen] at hlen'
    exact h0 (List.length_eq_zero_iff.1 hlen'.symm)
  obtain ⟨y, a1, a2, a3⟩ := C30_weighted_sum mx Y sh h0 hlen hY
  obtain ⟨y', b1, b2, b3⟩ := C30_weighted_sum mx' Y' sh h0' hlen' hY'
  refine ⟨y, y', a1, b1, a2, b2, fun j hj hs => ?_⟩
  have hs' : ∀ i : ℕ, ∃ u u' : ℝ, ∀ hi : i < mx.weights.length, (Y i).get j = .fin u ∧ (Y' i).get j = .fin u' ∧
      mx'.weights[i] * u' = κ * (mx.weights[i] * u) := fun i => by
    by_cases hi : i < mx.weights.length
    · obtain ⟨u, u', h⟩ := hs i hi
      exact ⟨u, u', fun _ => h⟩
    · exact ⟨0, 0, fun h => absurd h hi⟩
  choose u u' hu using hs'
  refine ⟨∑ i : Fin mx.weights.length, mx.weights[i] * u i, ?_, ?_⟩
  · rw [a3 j hj, ← Num.fin_sum]
    refine Finset.sum_congr rfl fun i _ => ?_
    rw [(hu i i.2).1, Num.fin_mul]
  · rw [b3 j hj, Finset.mul_sum, ← Num.fin_sum]
    have := Fintype.sum_equiv (finCongr hn) (fun i : Fin mx'.weights.length => Num.fin mx'.weights[i] * (Y' i).get j)
      (fun i : Fin mx.weights.length => Num.fin (κ * (mx.weights[i] * u i))) (fun i => by
        have hi : (i : ℕ) < mx.weights.length := hn ▸ i.2
        rw [(hu i hi).2.1, Num.fin_mul]
        exact congrArg Num.fin (hu i hi).2.2)
    exact this

/-! ### Who is alike -/

/-- Tables whose densities differ by the factor `κ` where the condition is met. -/
theorem alike_tables {ρ ρ' : Cell → ℝ} (hκ : 0 < κ) (h : ∀ d, g.Has d → coords b d = coords b c → ρ' d = κ * ρ d) :
    AlikeGiven g κ (tablePop g ρ) (tablePop g ρ') b c where
  pos := hκ
  joint d hd e := by
    show ρ' d * _ = κ * (ρ d * _)
    rw [h d hd e, mul_assoc]
  vel hv φ d hd e := by
    simp only [tablePop, Finset.mul_sum]
    refine Finset.sum_congr rfl fun v _ => ?_
    rw [h { d with v := v } ⟨hd.1, v.2, hd.2.2⟩ ((coords_noV hv d v).trans e)]
    ring

/-- Disks and streams whose masses differ by the factor `κ`, and with the same mean velocities and dispersions, where the condition is met. -/
theorem alike_ingredients (hκ : 0 < κ) (h : ∀ d, g.Has d → coords b d = coords b c → m'.probTXZ g d = κ * m.probTXZ g d ∧
    m'.mu d.t d.x d.y = m.mu d.t d.x d.y ∧ m'.sig d.t d.x d.y = m.sig d.t d.x d.y) : AlikeGiven g κ (m.pop g) (m'.pop g) b c where
  pos := hκ
  joint d hd e := by
    obtain ⟨h1, h2, h3⟩ := h d hd e
    show m'.joint g d = κ * m.joint g d
    unfold Ingredients.joint Ingredients.probV
    rw [h1, h2, h3, mul_assoc]
  vel _ φ d hd e := by
    obtain ⟨h1, h2, h3⟩ := h d hd e
    show _ * _ = κ * (_ * _)
    rw [h1, h2, h3, mul_assoc]

/-- Two disks that differ only in the mean velocity of the older stars. -/
theorem alike_flat {μ μ' : ℕ → ℝ} (h : μ' 0 = μ 0) {b : PyStr} (hb : ∀ d, coords b d = coords b c → d.t = 0) :
    AlikeGiven demoGrid 1 ((flatIngr μ).pop demoGrid) ((flatIngr μ').pop demoGrid) b c :=
  alike_ingredients one_pos fun d hd e => ⟨by rw [flat_probTXZ _ hd, flat_probTXZ _ hd, one_mul], by
    show μ' d.t = μ d.t
    rw [hb d e, h], rfl⟩

/-! ### Velocity distributions by light -/

/-- Light in the velocity range of the grid. -/
theorem flat_lightV (μ : ℕ → ℝ) : ((flatIngr μ).pop demoGrid).lightOf demoGrid demoL ['v'] =
    ((∑ v : Fin 4, 1 * (normal (μ 0) (1 / 10)).real (Set.Ioc (-100 + (v : ℕ) * 100) (-100 + ((v : ℕ) + 1) * 100))) +
      ∑ v : Fin 4, 2 * (normal (μ 1) (1 / 10)).real (Set.Ioc (-100 + (v : ℕ) * 100) (-100 + ((v : ℕ) + 1) * 100))) / 2 := by
  unfold Pop.lightOf
  rw [if_pos (by decide), flat_joint_sum (μ := μ) (F := fun t _ => (t + 1 : ℝ))]
  · norm_num
  · intro d _; rfl

theorem flat_lightT (μ : ℕ → ℝ) : ((flatIngr μ).pop demoGrid).lightOf demoGrid demoL ['t'] = 3 / 2 := by
  unfold Pop.lightOf
  rw [if_neg (by decide), flat_sum (F := fun t => (t + 1 : ℝ))]
  · norm_num
  · intro d hd
    rw [ingr_stars, flat_probTXZ _ hd]
    show ((d.t : ℝ) + 1) * _ = _
    ring

theorem flat_amountT (μ : ℕ → ℝ) (c : Cell) (hc : c.t = 0) : ((flatIngr μ).pop demoGrid).amount demoGrid demoL true ['t'] c = 1 / 2 := by
  unfold Pop.amount
  rw [if_neg (by decide), flat_sum (F := fun t => if t = 0 then 1 else 0)]
  · norm_num
  · intro d hd
    have : (coords ['t'] d = coords ['t'] c) ↔ d.t = 0 := by simp [coords, coord1, hc]
    simp only [this]
    split
    · next e =>
      rw [ingr_stars, flat_probTXZ _ hd]
      show ((d.t : ℝ) + 1) * _ = _
      rw [e]; norm_num
    · simp

theorem flat_amountTV (μ : ℕ → ℝ) (c : Cell) (hc : c.t = 0) (hv : c.v = 1) : ((flatIngr μ).pop demoGrid).amount demoGrid demoL true ['t','v'] c =
    (normal (μ 0) (1 / 10)).real (Set.Ioc 0 100) / 2 := by
  unfold Pop.amount
  rw [if_pos (by decide), flat_joint_sum (μ := μ) (F := fun t v => if t = 0 ∧ v = 1 then 1 else 0)]
  · simp only [Fin.sum_univ_four]
    norm_num
  · intro d hd
    have : (coords ['t','v'] d = coords ['t','v'] c) ↔ d.t = 0 ∧ d.v = 1 := by simp [coords, coord1, hc, hv]
    simp only [this]
    split
    · next e =>
      show ((d.t : ℝ) + 1) * _ = _
      rw [e.1]
      simp [Ingredients.pop]
    · simp

/-- Velocity distributions by light, given a condition, also depend on stars that do not meet it: two disks differ only in the velocities of their
older stars. The distributions of the velocity of the youngest ones, in one bin of velocity, are below 1.02 and above 2. -/
theorem C97_velocity_wrong : ∃ (p p' : Param) (m m' : Ingredients) (c : Cell) (r r' : Arr Num) (u u' : ℝ), ParamIs p demoGrid m demoL ∧
    ParamIs p' demoGrid m' demoL ∧ demoGrid.Has c ∧ AlikeGiven demoGrid 1 (m.pop demoGrid) (m'.pop demoGrid) ['t'] c ∧
    (m.pop demoGrid).amount demoGrid demoL true ['t'] c ≠ 0 ∧
    getP p.self ['v','_','t'] false true = .ok r ∧ getP p'.self ['v','_','t'] false true = .ok r' ∧
    r.get [c.v, c.t] = .fin u ∧ r'.get [c.v, c.t] = .fin u' ∧ u < 102 / 100 ∧ 2 < u' := by
  obtain ⟨p, h, -⟩ := flatDisk_exists (fun _ => 50)
  obtain ⟨p', h', -⟩ := flatDisk_exists (fun t => if t = 0 then 50 else 1000)
  have hc : demoGrid.Has ⟨0, 1, 0, 0, 0⟩ := by
    refine ⟨?_, ?_, ?_, ?_, ?_⟩ <;> norm_num [demoGrid, cubeGrid]
  obtain ⟨r, h1, -, h2⟩ := C32_conditionals h false true (fun _ => param_shines.1 (flat_shines _)) ['v'] ['t'] (by decide +kernel) (by decide)
  obtain ⟨r', h1', -, h2'⟩ := C32_conditionals h' false true (fun _ => param_shines.1 (flat_shines _)) ['v'] ['t'] (by decide +kernel) (by decide)
  have e := h2 _ hc
  have e' := h2' _ hc
  have hu : unionStr ['v'] ['t'] = ['t','v'] := by decide
  have hm : ∀ μ : ℕ → ℝ, ((flatIngr μ).pop demoGrid).marginal demoGrid demoL true ['t'] ⟨0, 1, 0, 0, 0⟩ = 1 / 3 := fun μ => by
    unfold Pop.marginal
    rw [if_pos rfl, flat_amountT _ _ rfl, flat_lightT]; norm_num
  have hm' : ∀ μ : ℕ → ℝ, ((flatIngr μ).pop demoGrid).marginal demoGrid demoL true ['t','v'] ⟨0, 1, 0, 0, 0⟩ =
      (normal (μ 0) (1 / 10)).real (Set.Ioc 0 100) / 2 / ((flatIngr μ).pop demoGrid).lightOf demoGrid demoL ['v'] := fun μ => by
    unfold Pop.marginal
    rw [if_pos rfl, flat_amountTV _ _ rfl rfl, lightOf_velocity (w := ['t','v']) (by decide)]
  rw [hu, ← ingr_marginal h, ← ingr_marginal h, hm, hm', flat_lightV, if_neg (by norm_num)] at e
  rw [hu, ← ingr_marginal h', ← ingr_marginal h', hm, hm', flat_lightV, if_neg (by norm_num)] at e'
  have hA : AlikeGiven demoGrid 1 ((flatIngr fun _ => 50).pop demoGrid) ((flatIngr fun t => if t = 0 then 50 else 1000).pop demoGrid) ['t'] ⟨0, 1, 0, 0, 0⟩ :=
    alike_flat (c := ⟨0, 1, 0, 0, 0⟩) (b := ['t']) (μ := fun _ => 50) (μ' := fun t => if t = 0 then 50 else 1000) rfl
      fun d e => by simpa [coords, coord1] using e
  refine ⟨p, p', _, _, _, r, r', _, _, h, h', hc, hA, by rw [flat_amountT _ _ rfl]; norm_num, h1, h1', e, e', ?_, ?_⟩
  · have a1 := normal_near (μ := 50) (σ := 1 / 10) (a := 0) (b := 100) (by norm_num) (by norm_num)
    have a0 := @MeasureTheory.measureReal_nonneg _ _ (normal 50 (1 / 10)) (Set.Ioc (-100) 0)
    have a2 := @MeasureTheory.measureReal_nonneg _ _ (normal 50 (1 / 10)) (Set.Ioc 100 200)
    have a3 := @MeasureTheory.measureReal_nonneg _ _ (normal 50 (1 / 10)) (Set.Ioc 200 300)
    have a4 := @MeasureTheory.measureReal_le_one _ _ (normal 50 (1 / 10)) _ (Set.Ioc 0 100)
    simp only [Fin.sum_univ_four]
    simp only [Fin.val_zero, Fin.val_one, Fin.val_two, show ((3 : Fin 4) : ℕ) = 3 from rfl]
    norm_num at a1 ⊢
    rw [div_div, div_lt_iff₀ (by linarith)]
    linarith
  · have a1 := normal_near (μ := 50) (σ := 1 / 10) (a := 0) (b := 100) (by norm_num) (by norm_num)
    have a0 := normal_far (μ := 50) (σ := 1 / 10) (a := -100) (b := 0) (by norm_num)
    have a2 := normal_far (μ := 50) (σ := 1 / 10) (a := 100) (b := 200) (by norm_num)
    have a3 := normal_far (μ := 50) (σ := 1 / 10) (a := 200) (b := 300) (by norm_num)
    have a4 := @MeasureTheory.measureReal_le_one _ _ (normal 50 (1 / 10)) _ (Set.Ioc 0 100)
    have b0 := normal_far (μ := 1000) (σ := 1 / 10) (a := -100) (b := 0) (by norm_num)
    have b1 := normal_far (μ := 1000) (σ := 1 / 10) (a := 0) (b := 100) (by norm_num)
    have b2 := normal_far (μ := 1000) (σ := 1 / 10) (a := 100) (b := 200) (by norm_num)
    have b3 := normal_far (μ := 1000) (σ := 1 / 10) (a := 200) (b := 300) (by norm_num)
    have c0 := @MeasureTheory.measureReal_nonneg _ _ (normal 1000 (1 / 10)) (Set.Ioc (-100) 0)
    have c1 := @MeasureTheory.measureReal_nonneg _ _ (normal 1000 (1 / 10)) (Set.Ioc 0 100)
    have c2 := @MeasureTheory.measureReal_nonneg _ _ (normal 1000 (1 / 10)) (Set.Ioc 100 200)
    have c3 := @MeasureTheory.measureReal_nonneg _ _ (normal 1000 (1 / 10)) (Set.Ioc 200 300)
    have d0 := @MeasureTheory.measureReal_nonneg _ _ (normal 50 (1 / 10)) (Set.Ioc (-100) 0)
    have d2 := @MeasureTheory.measureReal_nonneg _ _ (normal 50 (1 / 10)) (Set.Ioc 100 200)
    have d3 := @MeasureTheory.measureReal_nonneg _ _ (normal 50 (1 / 10)) (Set.Ioc 200 300)
    simp only [Fin.sum_univ_four]
    simp only [Fin.val_zero, Fin.val_one, Fin.val_two, show ((3 : Fin 4) : ℕ) = 3 from rfl]
    norm_num at a0 a1 a2 a3 b0 b1 b2 b3 ⊢
    rw [div_div, lt_div_iff₀ (by linarith)]
    linarith

/-! ### The hypotheses are met -/

theorem table_amount_pos {ρ : Cell → ℝ} (hg : g.Proper) (hρ : ∀ c, 0 < ρ c) (hL : ∀ t z, 0 < L t z) (hc : g.Has c) (b : PyStr) :
    0 < (tablePop g ρ).amount g L lw b c := by
  have hw : ∀ d, 0 < Pop.wt L lw d := fun d => by
    unfold Pop.wt
    split
    · exact hL _ _
    · exact one_pos
  rw [Pop.amount_eq hg (tablePop_ok hg fun d => (hρ d).le), tablePop_marg hg ρ (fun d => Pop.wt L lw d) (fun _ _ => rfl)]
  refine sumCells_pos (c := c) (fun d hd => ?_) hc ?_
  · beta_reduce
    split
    · exact mul_nonneg (hw d).le (mul_nonneg (hρ d).le (cellVolume_pos hg hd).le)
    · exact le_rfl
  · rw [if_pos rfl]
    exact mul_pos (hw c) (mul_pos (hρ c) (cellVolume_pos hg hc))

/-- Two plain components. In one pixel the second has three times the stars of the first. Elsewhere they differ in age, velocity and metallicity. -/
theorem twoTables_exist : ∃ (cube : IFUCube) (sp : Spectra) (stored' : Arr Num) (ρ' : Cell → ℝ),
    BaseIs cube (uniformStored 2 3 7) (uniformGrid 2 3 7 (-70, 70)) (fun _ => 1) demoL ∧ BaseIs cube stored' (uniformGrid 2 3 7 (-70, 70)) ρ' demoL ∧
    SpectraAre sp (uniformGrid 2 3 7 (-70, 70)) demoSpec 7 7 ∧
    ZeroBin (uniformGrid 2 3 7 (-70, 70)).nv (uniformGrid 2 3 7 (-70, 70)).v 3 ∧
    VelocityOk (uniformGrid 2 3 7 (-70, 70)).nv (uniformGrid 2 3 7 (-70, 70)).v sp.dv 3 ∧
    AlikeGiven (uniformGrid 2 3 7 (-70, 70)) 3 (tablePop (uniformGrid 2 3 7 (-70, 70)) fun _ => 1) (tablePop (uniformGrid 2 3 7 (-70, 70)) ρ') ['x']
      ⟨0, 0, 1, 2, 0⟩ ∧ (∀ c, 0 < ρ' c) ∧ ∀ t v z, ρ' ⟨t, v, 0, 0, z⟩ = t + v + z + 1 := by
  obtain ⟨cube, sp, -, h, hS, hdv, h5, h6, -⟩ := ybar_demo
  have hp : ∀ c : Cell, 0 < (if c.x = 1 ∧ c.y = 2 then 3 else (c.t + c.v + c.z + 1 : ℝ)) := fun c => by split <;> positivity
  refine ⟨cube, sp, ⟨[2, 7, 2, 3, 3], fun i => Num.lg ((fun c : Cell => if c.x = 1 ∧ c.y = 2 then (3 : ℝ) else c.t + c.v + c.z + 1)
    ⟨i.getD 0 0, i.getD 1 0, i.getD 2 0, i.getD 3 0, i.getD 4 0⟩)⟩, fun c => if c.x = 1 ∧ c.y = 2 then 3 else c.t + c.v + c.z + 1, h,
    ⟨h.proper, h.cubeIs, ⟨rfl, fun _ _ => rfl⟩, fun c => (hp c).le, h.light, h.lightNonneg⟩, hS, h5, h6, ?_, hp, fun t v z => if_neg (by simp)⟩
  refine alike_tables (by norm_num) fun d _ e => ?_
  have : d.x = 1 ∧ d.y = 2 := by simpa [coords, coord1] using e
  rw [if_pos this, mul_one]

/-- Their mean ages by light in that pixel are equal, and the spectra there differ by the factor 3. -/
example : ∃ (cube : IFUCube) (sp : Spectra) (stored' r r' y y' : Arr Num) (u : ℝ),
    getMean (baseSelf cube (uniformStored 2 3 7)) ['t','_','x'] true = .ok r ∧ getMean (baseSelf cube stored') ['t','_','x'] true = .ok r' ∧
    r.get [1, 2] = r'.get [1, 2] ∧
    evaluateYbar (fun m Y x => Y (min (m - 1) ⌊x * (m - 1 : ℝ) + 1 / 2⌋₊)) (baseSelf cube (uniformStored 2 3 7)) sp "column".toList = .ok y ∧
    evaluateYbar (fun m Y x => Y (min (m - 1) ⌊x * (m - 1 : ℝ) + 1 / 2⌋₊)) (baseSelf cube stored') sp "column".toList = .ok y' ∧
    y.get [3, 1, 2] = .fin u ∧ y'.get [3, 1, 2] = .fin (3 * u) := by
  obtain ⟨cube, sp, stored', ρ', h, h', hS, h5, h6, hA, hp, -⟩ := twoTables_exist
  have hc : (uniformGrid 2 3 7 (-70, 70)).Has ⟨0, 0, 1, 2, 0⟩ := by
    refine ⟨?_, ?_, ?_, ?_, ?_⟩ <;> norm_num [uniformGrid, cubeGrid]
  have hl : ∀ {ρ : Cell → ℝ}, (∀ c, 0 < ρ c) → (tablePop (uniformGrid 2 3 7 (-70, 70)) ρ).Shines (uniformGrid 2 3 7 (-70, 70)) demoL := fun hρ => by
    have := table_amount_pos (lw := true) h.proper hρ demoL_pos hc []
    rwa [amount_nil_light h.proper (tablePop_ok h.proper fun c => (hρ c).le)] at this
  obtain ⟨r, r', e1, e2, e3, e4, e5⟩ := (C97_plain_moments (lw := true) h h' (fun _ => hl fun _ => one_pos) (fun _ => hl hp) ['x'] (by simp)).1.mean 't'
    (by decide) (by decide)
  obtain ⟨y, y', f1, f2, -, -, f3⟩ := C97_plain_datacube interp_exists h h' (by norm_num) hS h5 h6 (by show 6 ≤ 7; norm_num) hc hA
    "column".toList (by decide)
  obtain ⟨u, u1, u2⟩ := f3 3 (by norm_num)
  exact ⟨cube, sp, stored', r, r', y, y', u, e1, e2,
    e5 _ hc ⟨(table_amount_pos h.proper (fun _ => one_pos) demoL_pos hc _).ne', _, hA⟩, f1, f2, u1, u2⟩

/-- Disks that differ in the velocities of the older stars only, and mixtures of them. -/
example : ∃ (p p' : Param) (m m' : Ingredients) (mx mx' : Mix), ParamIs p demoGrid m demoL ∧ ParamIs p' demoGrid m' demoL ∧ p.f2 = 1 ∧ p'.f2 = 1 ∧
    (m.pop demoGrid).Shines demoGrid demoL ∧ (m'.pop demoGrid).Shines demoGrid demoL ∧
    MixOf mx demoGrid 2 (fun _ => 1 / 2) (fun _ => m.pop demoGrid) demoL ∧ MixOf mx' demoGrid 2 (fun _ => 1 / 2) (fun _ => m'.pop demoGrid) demoL ∧
    (∀ (i : ℕ) (hi : i < mx.children.length), IsMember1 demoGrid demoL mx.children[i] (m.pop demoGrid)) ∧
    (∀ (i : ℕ) (hi : i < mx'.children.length), IsMember1 demoGrid demoL mx'.children[i] (m'.pop demoGrid)) ∧
    m.mu 1 0 0 = 50 ∧ m'.mu 1 0 0 = 250 ∧ ∀ c, demoGrid.Has c → c.t = 0 → ∀ b ∈ [['t'], ['t','x'], ['t','x','z']],
      AlikeGiven demoGrid 1 (m.pop demoGrid) (m'.pop demoGrid) b c ∧
      AlikeGiven demoGrid 1 (mixPop 2 (fun _ => 1 / 2) fun _ => m.pop demoGrid) (mixPop 2 (fun _ => 1 / 2) fun _ => m'.pop demoGrid) b c ∧
      ∀ lw, (m.pop demoGrid).amount demoGrid demoL lw b c ≠ 0 := by
  obtain ⟨p, h, hf⟩ := flatDisk_exists (fun _ => 50)
  obtain ⟨p', h', hf'⟩ := flatDisk_exists (fun t => if t = 0 then 50 else 250)
  obtain ⟨mx, h1, h2⟩ := halves_exist h hf
  obtain ⟨mx', h1', h2'⟩ := halves_exist h' hf'
  refine ⟨p, p', _, _, mx, mx', h, h', hf, hf', flat_shines _, flat_shines _, h1, h1', h2, h2', rfl, by norm_num [flatIngr], fun c hc ht b hb => ?_⟩
  have hA : AlikeGiven demoGrid 1 ((flatIngr fun _ => 50).pop demoGrid) ((flatIngr fun t => if t = 0 then 50 else 250).pop demoGrid) b c :=
    alike_flat (c := c) (b := b) (μ := fun _ => 50) (μ' := fun t => if t = 0 then 50 else 250) rfl fun d e => by
      simp only [List.mem_cons, List.not_mem_nil, or_false] at hb
      rcases hb with rfl | rfl | rfl <;> simp [coords, coord1, ht] at e <;> tauto
  refine ⟨hA, by rw [mixPop_halves, mixPop_halves]; exact hA, fun lw => ?_⟩
  exact (ingr_amount_pos h demoL_pos hc (by rw [flat_probTXZ _ hc]; norm_num) rfl).ne'

/-- Disks that differ in the velocities, except in one pixel; their spectra there are the same. -/
def pixelIngr (s : ℝ) : Ingredients := { flatIngr (fun _ => 50) with mu := fun _ x y => if x = 1 ∧ y = 2 then 50 else s }

theorem pixelDisk_exists (s : ℝ) : ∃ p, ParamIs p demoGrid (pixelIngr s) demoL ∧ p.f2 = 1 := by
  obtain ⟨p, h, hf⟩ := flatDisk_exists (fun _ => 50)
  exact ⟨{ p with muV := some ⟨[2, 5, 6], fun i => .fin ((pixelIngr s).mu (i.getD 0 0) (i.getD 1 0) (i.getD 2 0))⟩ },
    ⟨h.proper, h.cubeIs, ⟨h.norm.pt, h.norm.px, h.norm.pz, h.norm.sig, h.norm.sumT, h.norm.sumX, h.norm.sumZ⟩, h.logPt, h.logPxt, h.logPztx,
      ⟨_, rfl, rfl, fun _ _ => rfl⟩, h.sigV, h.light, h.lightNonneg⟩, hf⟩

example : ∃ (p p' : Param) (sp : Spectra) (mx mx' : Mix) (y y' Y Y' : Arr Num) (u : ℝ), ParamIs p demoGrid (pixelIngr 0) demoL ∧
    ParamIs p' demoGrid (pixelIngr 100) demoL ∧ p.evaluateYbar sp "none".toList = .ok y ∧ p'.evaluateYbar sp "none".toList = .ok y' ∧
    y.get [3, 1, 2] = .fin u ∧ y'.get [3, 1, 2] = .fin u ∧
    mx.children = [Component.child p.self (some y), Component.child p.self (some y)] ∧ mx.weights = [1 / 4, 3 / 4] ∧
    mx'.children = [Component.child p'.self (some y'), Component.child p'.self (some y')] ∧ mx'.weights = [2 / 4, 6 / 4] ∧
    mx.evaluateYbar = .ok { mx with ybar := some Y } ∧ mx'.evaluateYbar = .ok { mx' with ybar := some Y' } ∧
    ∃ w : ℝ, Y.get [3, 1, 2] = .fin w ∧ Y'.get [3, 1, 2] = .fin (2 * w) := by
  obtain ⟨p, h, -⟩ := pixelDisk_exists 0
  obtain ⟨p', h', -⟩ := pixelDisk_exists 100
  obtain ⟨sp, h1, -⟩ := anySpectra_exist (fun t z k => t + 2 * z + k) 8 100
  have hc : demoGrid.Has ⟨0, 0, 1, 2, 0⟩ := by
    refine ⟨?_, ?_, ?_, ?_, ?_⟩ <;> norm_num [demoGrid, cubeGrid]
  have hA : AlikeGiven demoGrid 1 ((pixelIngr 0).pop demoGrid) ((pixelIngr 100).pop demoGrid) ['x'] ⟨0, 0, 1, 2, 0⟩ :=
    alike_ingredients one_pos fun d hd e => by
      have : d.x = 1 ∧ d.y = 2 := by simpa [coords, coord1] using e
      refine ⟨(one_mul _).symm, ?_, rfl⟩
      show (if _ then _ else _) = if _ then _ else _
      rw [if_pos this, if_pos this]
  obtain ⟨y, y', e1, e2, e3, e4, e5⟩ := C97_parametric_datacube h h' (by norm_num) h1 hc hA "none".toList (by decide)
  obtain ⟨u, u1, u2⟩ := e5 3 (by norm_num)
  rw [one_mul] at u2
  obtain ⟨Y, Y', f1, f2, -, -, f3⟩ := C97_mixture_datacube (κ := 2)
    (mx := ⟨p.cube, [Component.child p.self (some y), Component.child p.self (some y)], [1 / 4, 3 / 4], none⟩)
    (mx' := ⟨p.cube, [Component.child p'.self (some y'), Component.child p'.self (some y')], [2 / 4, 6 / 4], none⟩)
    (fun _ => y) (fun _ => y') [8, demoGrid.nx, demoGrid.ny] (by simp) rfl rfl rfl
    (fun i hi => by
      have : i < 2 := hi
      interval_cases i <;> exact ⟨rfl, e3⟩)
    (fun i hi => by
      have : i < 2 := hi
      interval_cases i <;> exact ⟨rfl, e4⟩)
  obtain ⟨w, w1, w2⟩ := f3 [3, 1, 2] ⟨by norm_num, by norm_num [demoGrid, cubeGrid], by norm_num [demoGrid, cubeGrid], trivial⟩
    (fun i hi => ⟨u, u, u1, u2, by
      have : i < 2 := hi
      interval_cases i
      · show 2 / 4 * u = 2 * (1 / 4 * u); ring
      · show 6 / 4 * u = 2 * (3 / 4 * u); ring⟩)
  exact ⟨p, p', sp, _, _, y, y', Y, Y', u, h, h', e1, e2, u1, u2, rfl, rfl, rfl, rfl, f1, f2, w, w1, w2⟩

end PKM
