import Verif.Props.Units
import Verif.Props.Truncation

/-!
# C104: the velocity bins of the cube matter only to distributions of velocity

Make a growing disk or a stream twice, on cubes that differ only in their velocity bins: other limits, another number of bins. Everything
that is not a distribution over the velocity bins is the same: distributions of age, position and metallicity; means and central moments of
every quantity, the velocity too; covariances and correlations without velocity; L-moments of age and metallicity; the datacube, if
the spectra are the same. Probabilities of velocity bins, by mass, do not depend on the other bins: a bin that consists of bins
of the other cube has the sum of their probabilities.

* `g.withV nv v` is the grid `g` with the `nv` velocity bins between the edges `v`.
* `makeDisk f2 cube center rotation calls` and `makeStream …` make the component and run the setter calls.
-/

open scoped Classical
open MeasureTheory ProbabilityTheory Set

noncomputable section

namespace PKM
open Np Component

variable {p p' : Param} {g : Grid} {m : Ingredients} {L : ℕ → ℕ → ℝ} {f2 : ℝ} {center : ℝ × ℝ} {rotation : ℝ} {nv : ℕ} {v : ℕ → ℝ}

/-! ### Specification -/

/-- The grid with other velocity bins. -/
def Grid.withV (g : Grid) (nv : ℕ) (v : ℕ → ℝ) : Grid := { g with nv := nv, v := v }

/-- All answers are the same, but for distributions over the velocity bins. -/
structure SameButBins (p p' : Param) (g : Grid) (nv : ℕ) (v : ℕ → ℝ) : Prop where
  marg : ∀ density lw, ∀ w ∈ marginals, 'v' ∉ w → ∃ q q', getP p.self w density lw = .ok q ∧ getP p'.self w density lw = .ok q' ∧
    q.shape = g.shapeOf w ∧ q'.shape = g.shapeOf w ∧ ∀ c, g.Has c → q'.get (coords w c) = q.get (coords w c)
  cond : ∀ density lw, ∀ a b, (a, b) ∈ conditionals → 'v' ∉ a → 'v' ∉ b → ∃ q q', getP p.self (condStr a b) density lw = .ok q ∧
    getP p'.self (condStr a b) density lw = .ok q' ∧ q.shape = g.shapeOf a ++ g.shapeOf b ∧ q'.shape = g.shapeOf a ++ g.shapeOf b ∧
    ∀ c, g.Has c → q'.get (coords a c ++ coords b c) = q.get (coords a c ++ coords b c)
  /-- means and moments, of the velocity too, wherever there are stars -/
  mean : p.f2 = 1 → ∀ lw w, 'v' ∉ w → ∀ q ∈ ['t','v','x','y','z'], ValidPair (varOf q) w → ∃ r r', getMean p.self (distStr (varOf q) w) lw = .ok r ∧
    getMean p'.self (distStr (varOf q) w) lw = .ok r' ∧ r.shape = compShape (varOf q) ++ g.shapeOf w ∧ r'.shape = r.shape ∧
    ∀ c, g.Has c → Populated p lw w c → ∃ u : ℝ, r.get (compIdx q ++ coords w c) = .fin u ∧ r'.get (compIdx q ++ coords w c) = .fin u
  central : p.f2 = 1 → ∀ lw w (j : ℕ), 'v' ∉ w → ∀ q ∈ ['t','v','x','y','z'], ValidPair (varOf q) w → ∃ r r',
    getCentralMoment p.self (distStr (varOf q) w) j lw = .ok r ∧ getCentralMoment p'.self (distStr (varOf q) w) j lw = .ok r' ∧
    r.shape = compShape (varOf q) ++ g.shapeOf w ∧ r'.shape = r.shape ∧
    ∀ c, g.Has c → Populated p lw w c → ∃ u : ℝ, r.get (compIdx q ++ coords w c) = .fin u ∧ r'.get (compIdx q ++ coords w c) = .fin u
  covariance : p.f2 = 1 → ∀ lw w a a', 'v' ∉ w → a ≠ 'v' → a' ≠ 'v' → ValidPair [a, a'] w → ∃ r r', (obj p.self).getCovariance (distStr [a, a'] w) lw = .ok r ∧
    (obj p'.self).getCovariance (distStr [a, a'] w) lw = .ok r' ∧ r.shape = compShape [a] ++ compShape [a'] ++ g.shapeOf w ∧ r'.shape = r.shape ∧
    ∀ q ∈ PyStr.replaceX [a], ∀ q' ∈ PyStr.replaceX [a'], ∀ c, g.Has c → Populated p lw w c →
      r'.get (compIdx q ++ compIdx q' ++ coords w c) = r.get (compIdx q ++ compIdx q' ++ coords w c)
  correlation : p.f2 = 1 → ∀ lw w a a', 'v' ∉ w → a ≠ 'v' → a' ≠ 'v' → ValidPair [a, a'] w → ∃ r r', (obj p.self).getCorrelation (distStr [a, a'] w) lw = .ok r ∧
    (obj p'.self).getCorrelation (distStr [a, a'] w) lw = .ok r' ∧ r.shape = compShape [a] ++ compShape [a'] ++ g.shapeOf w ∧ r'.shape = r.shape ∧
    ∀ q ∈ PyStr.replaceX [a], ∀ q' ∈ PyStr.replaceX [a'], ∀ c, g.Has c → Populated p lw w c →
      r'.get (compIdx q ++ compIdx q' ++ coords w c) = r.get (compIdx q ++ compIdx q' ++ coords w c)
  /-- L-moments of age and metallicity, wherever the distribution is not nan -/
  lmoment : ∀ lw w (j : ℕ), 1 ≤ j → 'v' ∉ w → ∀ q ∈ ['t','z'], ValidPair [q] w → ∃ A r r', getP p.self (distStr [q] w) false lw = .ok A ∧
    (obj p.self).getLMoment (distStr [q] w) j lw = .ok r ∧ (obj p'.self).getLMoment (distStr [q] w) j lw = .ok r' ∧ r.shape = g.shapeOf w ∧
    r'.shape = g.shapeOf w ∧ ∀ c, g.Has c → (∀ i < g.bins q, A.get (i :: coords w c) ≠ .nan) → r'.get (coords w c) = r.get (coords w c)
  /-- datacubes made of the same spectra are equal -/
  datacube : ∀ sp S n, 0 < n → SpectraAre sp g S n n → ∀ batch ∈ ["none".toList, "column".toList, "spaxel".toList], ∃ y y',
    p.evaluateYbar sp batch = .ok y ∧ p'.evaluateYbar sp batch = .ok y' ∧ y.shape = [n, g.nx, g.ny] ∧ y'.shape = [n, g.nx, g.ny] ∧
    ∀ w < n, ∀ i < g.nx, ∀ j < g.ny, y'.get [w, i, j] = y.get [w, i, j]
  /-- by mass, a velocity bin that consists of the bins `i, …, j - 1` of the other cube has the sum of their probabilities -/
  bins : ∀ w ∈ marginals, 'v' ∈ w → ∃ q q', getP p.self w false false = .ok q ∧ getP p'.self w false false = .ok q' ∧
    q.shape = g.shapeOf w ∧ q'.shape = (g.withV nv v).shapeOf w ∧
    ∀ c, g.Has c → ∀ i j, i ≤ j → j ≤ nv → v i = g.v c.v → v j = g.v (c.v + 1) →
      q.get (coords w c) = ∑ u ∈ Finset.Ico i j, q'.get (coords w { c with v := u })
  /-- the same for the velocities of the stars of one age in one pixel -/
  given : ∃ q q', getP p.self (condStr ['v'] ['t','x']) false false = .ok q ∧ getP p'.self (condStr ['v'] ['t','x']) false false = .ok q' ∧
    q.shape = [g.nv, g.nt, g.nx, g.ny] ∧ q'.shape = [nv, g.nt, g.nx, g.ny] ∧
    ∀ c, g.Has c → ∀ i j, i ≤ j → j ≤ nv → v i = g.v c.v → v j = g.v (c.v + 1) →
      q.get [c.v, c.t, c.x, c.y] = ∑ u ∈ Finset.Ico i j, q'.get [u, c.t, c.x, c.y]

/-! ### Lemmas: grids -/

theorem withV_has (hnv : 0 < nv) {c : Cell} (hc : g.Has c) : (g.withV nv v).Has { c with v := 0 } := ⟨hc.1, hnv, hc.2.2⟩

theorem Grid.Proper.withV (h : g.Proper) (hnv : 0 < nv) (hv : ∀ i < nv, v i < v (i + 1)) : (g.withV nv v).Proper where
  nt := h.nt
  nv := hnv
  nx := h.nx
  ny := h.ny
  nz := h.nz
  t := h.t
  v := hv
  x := h.x
  y := h.y
  z := h.z

theorem withV_volOf {w : PyStr} (hw : 'v' ∉ w) (c : Cell) (i : ℕ) : (g.withV nv v).volOf w { c with v := i } = g.volOf w c := by
  unfold Grid.volOf
  refine congrArg List.prod (List.map_congr_left fun ch hch => ?_)
  have : ch ≠ 'v' := fun e => hw (e ▸ hch)
  unfold Grid.width1 Grid.withV
  simp [this]

theorem withV_shapeOf {w : PyStr} (hw : 'v' ∉ w) : (g.withV nv v).shapeOf w = g.shapeOf w := by
  unfold Grid.shapeOf
  refine List.flatMap_congr fun ch hch => ?_
  have : ch ≠ 'v' := fun e => hw (e ▸ hch)
  unfold Grid.shape1 Grid.withV
  simp [this]

theorem withV_marginal {lw : Bool} {w : PyStr} (hw : 'v' ∉ w) (c : Cell) (i : ℕ) :
    m.marginal (g.withV nv v) L lw w { c with v := i } = m.marginal g L lw w c := by
  unfold Ingredients.marginal
  rw [if_neg hw, if_neg hw, coords_noV hw]
  rfl

section
variable {lw : Bool} {w : PyStr} {c : Cell} (hw : 'v' ∉ w) (i : ℕ)
include hw

theorem withV_amount : (m.pop (g.withV nv v)).amount (g.withV nv v) L lw w { c with v := i } = (m.pop g).amount g L lw w c := by
  unfold Pop.amount
  rw [if_neg hw, if_neg hw, coords_noV hw]
  rfl

theorem withV_expect (q : Char) (φ : ℝ → ℝ) :
    (m.pop (g.withV nv v)).expect (g.withV nv v) L lw w q φ { c with v := i } = (m.pop g).expect g L lw w q φ c := by
  unfold Pop.expect
  rw [withV_amount hw, if_neg hw, if_neg hw, coords_noV hw]
  by_cases hq : q = 'v'
  · rw [if_pos hq, if_pos hq]; rfl
  · rw [if_neg hq, if_neg hq]
    have : ∀ d, (g.withV nv v).value q d = g.value q d := fun d => by
      unfold Grid.value Grid.withV
      simp [hq]
    simp only [this]
    rfl

theorem withV_mean (q : Char) : (m.pop (g.withV nv v)).mean (g.withV nv v) L lw w q { c with v := i } = (m.pop g).mean g L lw w q c :=
  withV_expect hw i q _

theorem withV_central (q : Char) (j : ℕ) :
    (m.pop (g.withV nv v)).central (g.withV nv v) L lw w q j { c with v := i } = (m.pop g).central g L lw w q j c := by
  unfold Pop.central
  rw [withV_mean hw, withV_expect hw]

theorem withV_givenCov {q q' : Char} (hq : q ≠ 'v') (hq' : q' ≠ 'v') :
    (m.pop (g.withV nv v)).givenCov (g.withV nv v) L lw w q q' { c with v := i } = (m.pop g).givenCov g L lw w q q' c := by
  unfold Pop.givenCov
  rw [if_neg hq, if_neg hq, if_neg hq', if_neg hq']
  unfold Pop.cov Pop.expectOf
  rw [withV_amount hw, withV_mean hw, withV_mean hw, if_neg hw, if_neg hw, coords_noV hw]
  have : ∀ {q}, q ≠ 'v' → ∀ d, (g.withV nv v).value q d = g.value q d := fun hq d => by
    unfold Grid.value Grid.withV
    simp [hq]
  simp only [this hq, this hq']
  rfl

end

/-! ### Lemmas: velocity bins -/

theorem probV_addV (hg : g.Proper) (hv : ∀ i < nv, v i < v (i + 1)) {c : Cell} (hc : g.Has c) (hσ : 0 < m.sig c.t c.x c.y) {i j : ℕ} (hij : i ≤ j) (hj : j ≤ nv)
    (hi : v i = g.v c.v) (hjv : v j = g.v (c.v + 1)) : m.probV g c = ∑ u ∈ Finset.Ico i j, m.probV (g.withV nv v) { c with v := u } := by
  have e1 : m.probV g c = stdPhi ((v j - m.mu c.t c.x c.y) / m.sig c.t c.x c.y) - stdPhi ((v i - m.mu c.t c.x c.y) / m.sig c.t c.x c.y) := by
    rw [hi, hjv]
    exact normal_Ioc hσ (hg.v _ hc.2.1).le
  rw [e1, ← Finset.sum_Ico_sub (fun u => stdPhi ((v u - m.mu c.t c.x c.y) / m.sig c.t c.x c.y)) hij]
  refine Finset.sum_congr rfl fun u hu => ?_
  exact (normal_Ioc hσ (hv u ((Finset.mem_Ico.1 hu).2.trans_le hj)).le).symm

theorem marginal_v {w : PyStr} (hw : w ∈ marginals) (hv : 'v' ∈ w) (c : Cell) (hc : c.v < g.nv) : m.marginal g L false w c = Ingredients.sumTXZ g (fun d =>
    if coords (withoutV w) d = coords (withoutV w) c then m.probTXZ g d * m.probV g { d with v := c.v } else 0) := by
  unfold Ingredients.marginal
  rw [if_pos hv, sumCells_sumV]
  refine sumTXZ_congr fun d => ?_
  rw [Finset.sum_eq_single (⟨c.v, hc⟩ : Fin g.nv)]
  · refine if_congr ?_ rfl rfl
    have := coords_withoutV w hw hv d c c.v c.v
    simpa using this
  · intro v' _ hne
    rw [if_neg]
    intro e
    have := (coords_withoutV w hw hv d c c.v v').1 e
    exact hne (Fin.ext this.1)
  · simp

theorem marginal_addV (h : ParamIs p g m L) (hnv : ∀ i < nv, v i < v (i + 1)) {w : PyStr} (hw : w ∈ marginals) (hv : 'v' ∈ w) {c : Cell} (hc : g.Has c)
    {i j : ℕ} (hij : i ≤ j) (hj : j ≤ nv) (hi : v i = g.v c.v) (hjv : v j = g.v (c.v + 1)) :
    m.marginal g L false w c = ∑ u ∈ Finset.Ico i j, m.marginal (g.withV nv v) L false w { c with v := u } := by
  rw [marginal_v hw hv c hc.2.1]
  have e : ∀ u ∈ Finset.Ico i j, m.marginal (g.withV nv v) L false w { c with v := u } = Ingredients.sumTXZ g (fun d =>
      if coords (withoutV w) d = coords (withoutV w) c then m.probTXZ g d * m.probV (g.withV nv v) { d with v := u } else 0) := fun u hu => by
    rw [marginal_v hw hv { c with v := u } ((Finset.mem_Ico.1 hu).2.trans_le hj), coords_noV (v_withoutV w)]
    rfl
  rw [Finset.sum_congr rfl e]
  have e2 : ∀ F : ℕ → Cell → ℝ, ∑ u ∈ Finset.Ico i j, Ingredients.sumTXZ g (F u) = Ingredients.sumTXZ g (fun d => ∑ u ∈ Finset.Ico i j, F u d) := fun F => by
    unfold Ingredients.sumTXZ
    rw [Finset.sum_comm]; refine Finset.sum_congr rfl fun _ _ => ?_
    rw [Finset.sum_comm]; refine Finset.sum_congr rfl fun _ _ => ?_
    rw [Finset.sum_comm]; refine Finset.sum_congr rfl fun _ _ => ?_
    rw [Finset.sum_comm]
  rw [e2]
  refine sumTXZ_has h.proper fun d hd => ?_
  split
  · rw [← Finset.mul_sum]
    congr 1
    exact probV_addV h.proper hnv (c := { d with v := c.v }) ⟨hd.1, hc.2.1, hd.2.2⟩ (h.norm.sig _ _ _) hij hj hi hjv
  · simp

/-! ### Lemmas: answers -/

theorem letters_noV : ∀ q ∈ conditionals, q ∈ [(['x'],['t']), (['v'],['t','x']), (['z'],['t','x'])] → 'v' ∉ q.1 → q = (['x'],['t']) ∨ q = (['z'],['t','x']) := by
  decide +kernel

theorem union_free : ∀ q ∈ conditionals, 'v' ∉ q.1 → 'v' ∉ q.2 → 'v' ∉ unionStr q.1 q.2 := by decide +kernel

section
variable (h : ParamIs p g m L) (h' : ParamIs p' (g.withV nv v) m L) (hl : Shines g m L)
include h h' hl

theorem bins_cond (density lw : Bool) {a b : PyStr} (hab : (a, b) ∈ conditionals) (ha : 'v' ∉ a) (hb : 'v' ∉ b) : ∃ q q',
    getP p.self (condStr a b) density lw = .ok q ∧ getP p'.self (condStr a b) density lw = .ok q' ∧ q.shape = g.shapeOf a ++ g.shapeOf b ∧
    q'.shape = g.shapeOf a ++ g.shapeOf b ∧ ∀ c, g.Has c → q'.get (coords a c ++ coords b c) = q.get (coords a c ++ coords b c) := by
  have hl' : Shines (g.withV nv v) m L := hl
  have hnv := h'.proper.nv
  by_cases ho : (a, b) ∈ [(['x'],['t']), (['v'],['t','x']), (['z'],['t','x'])]
  · have := letters_noV _ hab ho ha
    simp only [Prod.mk.injEq] at this
    cases lw
    · obtain ⟨⟨q1, i1, i2, i3⟩, -, ⟨q3, k1, k2, k3⟩⟩ := C32_ingredients h density
      obtain ⟨⟨q1', i1', i2', i3'⟩, -, ⟨q3', k1', k2', k3'⟩⟩ := C32_ingredients h' density
      rcases this with ⟨rfl, rfl⟩ | ⟨rfl, rfl⟩
      · refine ⟨q1, q1', i1, i1', i2, i2', fun c hc => (i3' _ (withV_has hnv hc)).trans (Eq.trans ?_ (i3 c hc).symm)⟩
        rw [withV_volOf (by decide)]; rfl
      · refine ⟨q3, q3', k1, k1', k2, k2', fun c hc => (k3' _ (withV_has hnv hc)).trans (Eq.trans ?_ (k3 c hc).symm)⟩
        rw [withV_volOf (by decide)]; rfl
    · obtain ⟨⟨q1, i1, i2, i3⟩, -, ⟨q3, k1, k2, k3⟩⟩ := C32_light_ingredients h density hl
      obtain ⟨⟨q1', i1', i2', i3'⟩, -, ⟨q3', k1', k2', k3'⟩⟩ := C32_light_ingredients h' density hl'
      rcases this with ⟨rfl, rfl⟩ | ⟨rfl, rfl⟩
      · refine ⟨q1, q1', i1, i1', i2, i2', fun c hc => (i3' _ (withV_has hnv hc)).trans (Eq.trans ?_ (i3 c hc).symm)⟩
        rw [withV_volOf (by decide), withV_marginal (by decide), withV_marginal (by decide)]
      · refine ⟨q3, q3', k1, k1', k2, k2', fun c hc => (k3' _ (withV_has hnv hc)).trans (Eq.trans ?_ (k3 c hc).symm)⟩
        rw [withV_volOf (by decide), withV_marginal (by decide), withV_marginal (by decide)]
  · obtain ⟨q, h1, h2, h3⟩ := C32_conditionals h density lw (fun _ => hl) a b hab ho
    obtain ⟨q', h1', h2', h3'⟩ := C32_conditionals h' density lw (fun _ => hl') a b hab ho
    refine ⟨q, q', h1, h1', h2, h2'.trans (by rw [withV_shapeOf ha, withV_shapeOf hb]), fun c hc => ?_⟩
    have := h3' _ (withV_has hnv hc)
    rw [coords_noV ha, coords_noV hb, withV_volOf ha, withV_marginal hb, withV_marginal (union_free _ hab ha hb)] at this
    exact this.trans (h3 c hc).symm

theorem bins_share {lw : Bool} {a b : PyStr} (hv : ValidPair a b) (ha : 'v' ∉ a) (hb : 'v' ∉ b) {A A' : Arr Num} (hA : getP p.self (distStr a b) false lw = .ok A)
    (hA' : getP p'.self (distStr a b) false lw = .ok A') {d : Cell} (hd : g.Has d) : A'.get (coords a d ++ coords b d) = A.get (coords a d ++ coords b d) := by
  rcases hv with ⟨rfl, hm⟩ | hab
  · obtain ⟨q, h1, -, h3⟩ := C32_marginals h false lw (fun _ => hl) a hm
    obtain ⟨q', h1', -, h3'⟩ := C32_marginals h' false lw (fun _ => (hl : Shines (g.withV nv v) m L)) a hm
    obtain rfl : _ = A := Except.ok.inj (h1.symm.trans hA)
    obtain rfl : _ = A' := Except.ok.inj (h1'.symm.trans hA')
    have e0 : coords a d ++ coords [] d = coords a d := by simp [coords]
    have := h3' _ (withV_has h'.proper.nv hd)
    rw [coords_noV ha, withV_marginal ha] at this
    rw [e0]
    exact this.trans (h3 d hd).symm
  · obtain ⟨q, q', h1, h1', -, -, h3⟩ := bins_cond h h' hl false lw hab ha hb
    have ne : b ≠ [] := (by decide : ∀ vw ∈ conditionals, vw.2 ≠ []) _ hab
    rw [distStr, if_neg ne] at hA hA'
    obtain rfl : _ = A := Except.ok.inj (h1.symm.trans hA)
    obtain rfl : _ = A' := Except.ok.inj (h1'.symm.trans hA')
    exact h3 d hd

omit h' in
theorem bins_fin {lw : Bool} {a b : PyStr} (hv : ValidPair a b) {A : Arr Num} (hA : getP p.self (distStr a b) false lw = .ok A)
    {d : Cell} (hd : g.Has d) (hn : A.get (coords a d ++ coords b d) ≠ .nan) : ∃ u : ℝ, A.get (coords a d ++ coords b d) = .fin u := by
  have of_ite : ∀ {s u : ℝ}, A.get (coords a d ++ coords b d) = (if s = 0 then .nan else .fin u) → ∃ u : ℝ, A.get (coords a d ++ coords b d) = .fin u :=
    fun {s u} e => by
      by_cases h0 : s = 0
      · rw [if_pos h0] at e; exact absurd e hn
      · rw [if_neg h0] at e; exact ⟨u, e⟩
  rcases hv with ⟨rfl, hm⟩ | hab
  · obtain ⟨q, h1, -, h3⟩ := C32_marginals h false lw (fun _ => hl) a hm
    obtain rfl : _ = A := Except.ok.inj (h1.symm.trans hA)
    have e0 : coords a d ++ coords [] d = coords a d := by simp [coords]
    rw [e0]
    exact ⟨_, h3 d hd⟩
  · have ne : b ≠ [] := (by decide : ∀ vw ∈ conditionals, vw.2 ≠ []) _ hab
    rw [distStr, if_neg ne] at hA
    by_cases ho : (a, b) ∈ [(['x'],['t']), (['v'],['t','x']), (['z'],['t','x'])]
    · simp only [List.mem_cons, Prod.mk.injEq, List.not_mem_nil, or_false] at ho
      cases lw
      · obtain ⟨⟨q1, i1, i2, i3⟩, ⟨q2, j1, j2, j3⟩, ⟨q3, k1, k2, k3⟩⟩ := C32_ingredients h false
        rcases ho with ⟨rfl, rfl⟩ | ⟨rfl, rfl⟩ | ⟨rfl, rfl⟩
        · obtain rfl : _ = A := Except.ok.inj (i1.symm.trans hA)
          exact ⟨_, i3 d hd⟩
        · obtain rfl : _ = A := Except.ok.inj (j1.symm.trans hA)
          exact ⟨_, j3 d hd⟩
        · obtain rfl : _ = A := Except.ok.inj (k1.symm.trans hA)
          exact ⟨_, k3 d hd⟩
      · obtain ⟨⟨q1, i1, i2, i3⟩, ⟨q2, j1, j2, j3⟩, ⟨q3, k1, k2, k3⟩⟩ := C32_light_ingredients h false hl
        rcases ho with ⟨rfl, rfl⟩ | ⟨rfl, rfl⟩ | ⟨rfl, rfl⟩
        · obtain rfl : _ = A := Except.ok.inj (i1.symm.trans hA)
          exact of_ite (i3 d hd)
        · obtain rfl : _ = A := Except.ok.inj (j1.symm.trans hA)
          exact of_ite (j3 d hd)
        · obtain rfl : _ = A := Except.ok.inj (k1.symm.trans hA)
          exact of_ite (k3 d hd)
    · obtain ⟨q, h1, h2, h3⟩ := C32_conditionals h false lw (fun _ => hl) a b hab ho
      obtain rfl : _ = A := Except.ok.inj (h1.symm.trans hA)
      exact of_ite (h3 d hd)

theorem ParamIs.sameButBins (hf : p'.f2 = p.f2) : SameButBins p p' g nv v := by
  have hl' : Shines (g.withV nv v) m L := hl
  have hnv := h'.proper.nv
  have hv : ∀ i < nv, v i < v (i + 1) := h'.proper.v
  have sh : (m.pop g).Shines g L := by
    unfold Pop.Shines Pop.lightOf
    rw [if_neg (by decide), ingr_stars]
    exact hl
  have sh' : (m.pop (g.withV nv v)).Shines (g.withV nv v) L := by
    unfold Pop.Shines Pop.lightOf
    rw [if_neg (by decide), ingr_stars]
    exact hl'
  have at' := fun (e : p.f2 = 1) lw w => h'.popAt (hf.trans e) (lw := lw) (fun _ => sh') w
  have atp := fun (e : p.f2 = 1) lw w => h.popAt e (lw := lw) (fun _ => sh) w
  have ne : ∀ {lw v w c}, ValidPair v w → g.Has c → Populated p lw w c → (m.pop g).amount g L lw w c ≠ 0 := fun hv hc hp =>
    marginal_amount _ _ _ (hp.ne h hl (valid_conditioners hv) hc)
  have ne' : ∀ {lw : Bool} {a w : PyStr} {c : Cell}, 'v' ∉ w → ValidPair a w → g.Has c → Populated p lw w c →
      (m.pop (g.withV nv v)).amount (g.withV nv v) L lw w { c with v := 0 } ≠ 0 := fun hw hv hc hp => by
    rw [withV_amount hw]; exact ne hv hc hp
  refine ⟨fun density lw w hw hwv => ?_, fun density lw a b hab ha hb => bins_cond h h' hl density lw hab ha hb, fun e lw w hw q hq hv => ?_,
    fun e lw w j hw q hq hv => ?_, fun e lw w a a' hw ha ha' hv => ?_, fun e lw w a a' hw ha ha' hv => ?_, fun lw w j hj hw q hq hv => ?_,
    fun sp S n hn hS batch hb => ?_, fun w hw hwv => ?_, ?_⟩
  · obtain ⟨q, h1, h2, h3⟩ := C32_marginals h density lw (fun _ => hl) w hw
    obtain ⟨q', h1', h2', h3'⟩ := C32_marginals h' density lw (fun _ => hl') w hw
    refine ⟨q, q', h1, h1', h2, h2'.trans (withV_shapeOf hwv), fun c hc => ?_⟩
    have := h3' _ (withV_has hnv hc)
    rw [coords_noV hwv, withV_marginal hwv, withV_volOf hwv] at this
    exact this.trans (h3 c hc).symm
  · obtain ⟨k1, k2, -⟩ := quantity_facts hq
    obtain ⟨M, F, e1, i, u⟩ := (atp e lw w).mean _ hv k1
    obtain ⟨M', F', e1', i', u'⟩ := (at' e lw w).mean _ hv k1
    refine ⟨M, M', e1, e1', i.1, (i'.1.trans (by rw [withV_shapeOf hw])).trans i.1.symm,
      fun c hc hp => ⟨_, (i.2 q k2 c hc).trans (u q k2 c hc (ne hv hc hp)), ?_⟩⟩
    have := (i'.2 q k2 _ (withV_has hnv hc)).trans (u' q k2 _ (withV_has hnv hc) (ne' hw hv hc hp))
    rwa [coords_noV hw, withV_mean hw] at this
  · obtain ⟨k1, k2, -⟩ := quantity_facts hq
    obtain ⟨M, F, e1, i, u⟩ := (atp e lw w).central _ hv k1 trivial j
    obtain ⟨M', F', e1', i', u'⟩ := (at' e lw w).central _ hv k1 trivial j
    refine ⟨M, M', e1, e1', i.1, (i'.1.trans (by rw [withV_shapeOf hw])).trans i.1.symm,
      fun c hc hp => ⟨_, (i.2 q k2 c hc).trans (u q k2 c hc (ne hv hc hp)), ?_⟩⟩
    have := (i'.2 q k2 _ (withV_has hnv hc)).trans (u' q k2 _ (withV_has hnv hc) (ne' hw hv hc hp))
    rwa [coords_noV hw, withV_central hw] at this
  · obtain ⟨r, r1, r2, r3⟩ := (atp e lw w).covariance hv
    obtain ⟨r', r1', r2', r3'⟩ := (at' e lw w).covariance hv
    refine ⟨r, r', r1, r1', r2, (r2'.trans (by rw [withV_shapeOf hw])).trans r2.symm, fun q hq q' hq' c hc hp => ?_⟩
    have n1 : q ≠ 'v' := fun e => ha ((mem_replaceX hq).1 e)
    have n2 : q' ≠ 'v' := fun e => ha' ((mem_replaceX hq').1 e)
    have := r3' q hq q' hq' _ (withV_has hnv hc) (ne' hw hv hc hp)
    rw [coords_noV hw, withV_givenCov hw 0 n1 n2] at this
    exact this.trans (r3 q hq q' hq' c hc (ne hv hc hp)).symm
  · obtain ⟨r, r1, r2, r3⟩ := (atp e lw w).correlation hv trivial trivial
    obtain ⟨r', r1', r2', r3'⟩ := (at' e lw w).correlation hv trivial trivial
    refine ⟨r, r', r1, r1', r2, (r2'.trans (by rw [withV_shapeOf hw])).trans r2.symm, fun q hq q' hq' c hc hp => ?_⟩
    have n1 : q ≠ 'v' := fun e => ha ((mem_replaceX hq).1 e)
    have n2 : q' ≠ 'v' := fun e => ha' ((mem_replaceX hq').1 e)
    have := r3' q hq q' hq' _ (withV_has hnv hc) (ne' hw hv hc hp)
    unfold Pop.variance at this
    rw [coords_noV hw, withV_givenCov hw 0 n1 n2, withV_central hw, withV_central hw] at this
    exact this.trans (r3 q hq q' hq' c hc (ne hv hc hp)).symm
  · have hq3 : q ∈ ['t','v','z'] := by
      simp only [List.mem_cons, List.not_mem_nil, or_false] at hq ⊢
      rcases hq with rfl | rfl <;> simp
    have hqv : 'v' ∉ [q] := by
      simp only [List.mem_cons, List.not_mem_nil, or_false] at hq
      rcases hq with rfl | rfl <;> decide
    obtain ⟨A, r, e1, e2, e3, e4⟩ := C68_l_moments_of_distribution (lw := lw) h (fun _ => sh) q hq3 w hv j hj
    obtain ⟨A', r', e1', e2', e3', e4'⟩ := C68_l_moments_of_distribution (lw := lw) h' (fun _ => sh') q hq3 w hv j hj
    refine ⟨A, r, r', e1, e2, e2', e3, e3'.trans (withV_shapeOf hw), fun c hc hA => ?_⟩
    have hb : (g.withV nv v).bins q = g.bins q := by
      simp only [List.mem_cons, List.not_mem_nil, or_false] at hq
      rcases hq with rfl | rfl <;> rfl
    have hE : (g.withV nv v).edge q = g.edge q := by
      simp only [List.mem_cons, List.not_mem_nil, or_false] at hq
      rcases hq with rfl | rfl <;> rfl
    have all : ∀ i, ∃ u : ℝ, i < g.bins q → A.get (i :: coords w c) = .fin u ∧ A'.get (i :: coords w c) = .fin u := fun i => by
      by_cases hi : i < g.bins q
      · obtain ⟨d, hd, d1, d2⟩ := cell_at hv hq3 hc hi
        have e := bins_share h h' hl hv hqv hw e1 e1' hd
        rw [d1, d2, List.singleton_append] at e
        obtain ⟨u, hu⟩ := bins_fin h hl hv e1 hd (by rw [d1, d2]; exact hA i hi)
        rw [d1, d2, List.singleton_append] at hu
        exact ⟨u, fun _ => ⟨hu, e.trans hu⟩⟩
      · exact ⟨0, fun h => absurd h hi⟩
    choose π hπ using all
    have := e4' _ (withV_has hnv hc) π fun i hi => by rw [coords_noV hw]; exact (hπ i (by rwa [hb] at hi)).2
    rw [coords_noV hw, hb, hE] at this
    exact this.trans (e4 c hc π fun i hi => (hπ i hi).1).symm
  · have hS' : SpectraAre sp (g.withV nv v) S n n := ⟨hS.len, hS.nFft, hS.dims, hS.shape, hS.get⟩
    obtain ⟨⟨y1, a1, b1⟩, e2, e3, -⟩ := Param.evaluateYbar_is h hn hS
    obtain ⟨⟨y1', a1', b1'⟩, e2', e3', -⟩ := Param.evaluateYbar_is h' hn hS'
    obtain ⟨y2, a2, b2⟩ := e2 rfl
    obtain ⟨y3, a3, b3⟩ := e3 rfl
    obtain ⟨y2', a2', b2'⟩ := e2' rfl
    obtain ⟨y3', a3', b3'⟩ := e3' rfl
    have eq : Param.ybarOf (g.withV nv v) m sp S n n = Param.ybarOf g m sp S n n := rfl
    rw [eq] at b1' b2' b3'
    have go : ∀ {y y' : Arr Num}, Is3 y n g.nx g.ny (fun w i j => .fin (Param.ybarOf g m sp S n n w i j)) →
        Is3 y' n g.nx g.ny (fun w i j => .fin (Param.ybarOf g m sp S n n w i j)) → y.shape = [n, g.nx, g.ny] ∧ y'.shape = [n, g.nx, g.ny] ∧
        ∀ w < n, ∀ i < g.nx, ∀ j < g.ny, y'.get [w, i, j] = y.get [w, i, j] := fun h1 h2 =>
      ⟨h1.1, h2.1, fun w hw i hi j hj => (h2.2 w hw i hi j hj).trans (h1.2 w hw i hi j hj).symm⟩
    simp only [List.mem_cons, List.not_mem_nil, or_false] at hb
    rcases hb with rfl | rfl | rfl
    · exact ⟨y1, y1', a1, a1', go b1 b1'⟩
    · exact ⟨y2, y2', a2, a2', go b2 b2'⟩
    · exact ⟨y3, y3', a3, a3', go b3 b3'⟩
  · obtain ⟨q, h1, h2, h3⟩ := C32_marginals h false false (by simp) w hw
    obtain ⟨q', h1', h2', h3'⟩ := C32_marginals h' false false (by simp) w hw
    refine ⟨q, q', h1, h1', h2, h2', fun c hc i j hij hj hi hjv => ?_⟩
    have e : ∀ u ∈ Finset.Ico i j, q'.get (coords w { c with v := u }) = .fin (m.marginal (g.withV nv v) L false w { c with v := u }) := fun u hu => by
      rw [h3' { c with v := u } ⟨hc.1, (Finset.mem_Ico.1 hu).2.trans_le hj, hc.2.2⟩]
      simp
    rw [h3 c hc, Finset.sum_congr rfl e, Num.fin_sum, ← marginal_addV h hv hw hwv hc hij hj hi hjv]
    simp
  · obtain ⟨-, ⟨q, h1, h2, h3⟩, -⟩ := C32_ingredients h false
    obtain ⟨-, ⟨q', h1', h2', h3'⟩, -⟩ := C32_ingredients h' false
    refine ⟨q, q', h1, h1', h2, h2', fun c hc i j hij hj hi hjv => ?_⟩
    have e : ∀ u ∈ Finset.Ico i j, q'.get [u, c.t, c.x, c.y] = .fin (m.probV (g.withV nv v) { c with v := u }) := fun u hu => by
      refine (h3' { c with v := u } ⟨hc.1, (Finset.mem_Ico.1 hu).2.trans_le hj, hc.2.2⟩).trans ?_
      simp
    rw [h3 c hc, Finset.sum_congr rfl e, Num.fin_sum, ← probV_addV h.proper hv hc (h.norm.sig _ _ _) hij hj hi hjv]
    simp

end

/-! ### Lemmas: histories -/

theorem marr_withV {M : List (Option Char)} {A : Arr Num} {F : Cell → Num} (hnv : 0 < nv) (hM : some 'v' ∉ M) (h : MArr (g.withV nv v) M A F) :
    MArr g M A (fun c => F { c with v := 0 }) := by
  refine ⟨h.1.trans (List.map_congr_left fun o ho => ?_), fun c hc => ?_⟩
  · cases o with
    | none => rfl
    | some ch =>
      have : ch ≠ 'v' := fun e => hM (e ▸ ho)
      simp [sizeM, sizeL, Grid.withV, this]
  · have := h.2 _ (withV_has hnv hc)
    rwa [coordM_noV c 0 hM] at this

theorem marr_ofV {M : List (Option Char)} {A : Arr Num} {F : Cell → Num} (hnv : 0 < g.nv) (hM : some 'v' ∉ M) (h : MArr g M A F) :
    MArr (g.withV nv v) M A (fun c => F { c with v := 0 }) := marr_withV (g := g.withV nv v) (nv := g.nv) (v := g.v) hnv hM h

theorem InUnits.rebinDisk (h : Sound p g f2 center rotation) (h' : Sound p' (g.withV nv v) f2 center rotation) (hU : InUnits p p' g 1)
    (hg : g.Proper) (hg' : (g.withV nv v).Proper) (hx : ∃ c, g.Has c ∧ frameX g center rotation c ≠ 0) (c : DiskCall) (hv : c.Valid)
    (ht : p.logPt ≠ none ∨ c.field = .age ∨ c.field = .metal) {p1 p1' : Param} (hr : c.run p = .ok p1) (hr' : c.run p' = .ok p1') :
    InUnits p1 p1' g 1 := by
  have hnv := hg'.nv
  obtain ⟨u, -, hm⟩ := h.built.amax hg
  have hm0 : 0 < u := by
    obtain ⟨c, hc, hne⟩ := hx
    exact (abs_pos.2 hne).trans_le (hm.2 c hc)
  have hm' : MaxX (g.withV nv v) center rotation u := by
    obtain ⟨⟨c, hc, e⟩, hu⟩ := hm
    exact ⟨⟨_, withV_has hnv hc, e⟩, fun c hc => hu { c with v := 0 } ⟨hc.1, hg.nv, hc.2.2⟩⟩
  have hA : ∀ {s e : ℝ}, Aged p s e → Aged p' s e := fun h => ⟨hU.tPars.trans h.1, h.2⟩
  cases c with
  | setPt lmd phi q => exact hU.setPt hr hr'
  | setPxt q rc alpha =>
    obtain ⟨s, e, ha⟩ := h.aged (by simpa [DiskCall.field] using ht)
    obtain ⟨v1, v2, v3⟩ := hv
    obtain ⟨A, k1, k2⟩ := disk_setPxt h.built hg ha v1 v2 v3
    obtain ⟨A', k1', k2'⟩ := disk_setPxt h'.built hg' (hA ha) v1 v2 v3
    obtain rfl : _ = p1 := Except.ok.inj (k1.symm.trans hr)
    obtain rfl : _ = p1' := Except.ok.inj (k1'.symm.trans hr')
    refine ⟨hU.ssps, hU.f2, hU.zGrid, hU.tPars, hU.logPt, fun B hB => ?_, hU.metal, hU.mean, hU.disp⟩
    cases hB
    have hρp : ∀ c, 0 < coredRho g center rotation s e q rc alpha c := fun c => coredRho_pos ha.2 v2.1 v2.2 c
    refine ⟨A', _, rfl, fun c hc => ?_, k2, (marr_withV hnv (by decide) k2').congr fun c hc => ?_⟩
    · exact div_pos (hρp c) (pixTotal_pos hg hρp c)
    · rw [one_pow, div_one]; rfl
  | setTDep q alpha tIn tOut tMin tMax =>
    obtain ⟨v1, v2, v3, v4, v5, v6⟩ := hv
    obtain ⟨A, B, k1, k3, k2⟩ := disk_setTDep h.built hg v1 v2 v3 v4 v5 v6 hm hm0
    obtain ⟨A', B', k1', k3', k2'⟩ := disk_setTDep h'.built hg' v1 v2 v3 v4 v5 v6 hm' hm0
    obtain rfl : _ = p1 := Except.ok.inj (k1.symm.trans hr)
    obtain rfl : _ = p1' := Except.ok.inj (k1'.symm.trans hr')
    refine ⟨hU.ssps, hU.f2, hU.zGrid, hU.tPars, hU.logPt, hU.space, fun B hB => ?_, hU.mean, hU.disp⟩
    cases hB
    refine ⟨B', _, rfl, k2, (marr_withV hnv (by decide) k2').congr fun c hc => ?_⟩
    have e : A'.get [c.x, c.y] = A.get [c.x, c.y] := by
      have j1 := k3.2 _ hc
      have j2 := k3'.2 _ (withV_has hnv hc)
      exact Eq.trans j2 j1.symm
    beta_reduce
    rw [e, hU.zGrid]; rfl
  | setMuV q rmax vmax =>
    obtain ⟨s, e, ha⟩ := h.aged (by simpa [DiskCall.field] using ht)
    obtain ⟨v1, v2, v3⟩ := hv
    obtain ⟨A, k1, k2⟩ := disk_setMuV h.built ha v1 v2 v3
    obtain ⟨A', k1', k2'⟩ := disk_setMuV h'.built (hA ha) v1 v2 v3
    obtain rfl : _ = p1 := Except.ok.inj (k1.symm.trans hr)
    obtain rfl : _ = p1' := Except.ok.inj (k1'.symm.trans hr')
    refine ⟨hU.ssps, hU.f2, hU.zGrid, hU.tPars, hU.logPt, hU.space, hU.metal, fun B hB => ?_, hU.disp⟩
    cases hB
    exact ⟨A', _, rfl, k2, (marr_withV hnv (by decide) k2').congr fun c hc => rfl⟩
  | setSigV q alpha sIn sOut =>
    obtain ⟨s, e, ha⟩ := h.aged (by simpa [DiskCall.field] using ht)
    obtain ⟨v1, v2, v3, v4⟩ := hv
    obtain ⟨A, k1, k2⟩ := disk_setSigV h.built hg ha v1 v2 v3 v4 hm hm0
    obtain ⟨A', k1', k2'⟩ := disk_setSigV h'.built hg' (hA ha) v1 v2 v3 v4 hm' hm0
    obtain rfl : _ = p1 := Except.ok.inj (k1.symm.trans hr)
    obtain rfl : _ = p1' := Except.ok.inj (k1'.symm.trans hr')
    refine ⟨hU.ssps, hU.f2, hU.zGrid, hU.tPars, hU.logPt, hU.space, hU.metal, hU.mean, fun B hB => ?_⟩
    cases hB
    exact ⟨A', _, rfl, k2, (marr_withV hnv (by decide) k2').congr fun c hc => rfl⟩

theorem InUnits.rebinCalls (hg : g.Proper) (hg' : (g.withV nv v).Proper) (hx : ∃ c, g.Has c ∧ frameX g center rotation c ≠ 0) :
    ∀ (ks : List DiskCall) (p p' p1 : Param), Sound p g f2 center rotation → Sound p' (g.withV nv v) f2 center rotation → InUnits p p' g 1 →
      (∀ c ∈ ks, c.Valid) → runAll DiskCall.run p ks = .ok p1 → ∃ p1', runAll DiskCall.run p' ks = .ok p1' ∧
        Sound p1 g f2 center rotation ∧ Sound p1' (g.withV nv v) f2 center rotation ∧ InUnits p1 p1' g 1 ∧ p1.cube = p.cube
  | [], p, p', p1, h, h', hU, _, hr => by cases hr; exact ⟨p', rfl, h, h', hU, rfl⟩
  | c :: ks, p, p', p1, h, h', hU, hv, hr => by
    have hc := hv c List.mem_cons_self
    have : (DiskCall.run p c >>= fun q => runAll DiskCall.run q ks) = .ok p1 := hr
    by_cases ht : p.logPt ≠ none ∨ c.field = .age ∨ c.field = .metal
    · obtain ⟨p2, k1, k2⟩ := h.disk hg hx c hc ht
      obtain ⟨d, hd, hd0⟩ := hx
      obtain ⟨p2', k1', k2'⟩ := h'.disk hg' ⟨_, withV_has hg'.nv hd, hd0⟩ c hc (by rw [hU.logPt]; exact ht)
      rw [k1] at this
      obtain ⟨p1', e1, e2, e3, e4, e5⟩ := InUnits.rebinCalls hg hg' ⟨d, hd, hd0⟩ ks p2 p2' p1 k2 k2' (InUnits.rebinDisk h h' hU hg hg' ⟨d, hd, hd0⟩ c hc ht k1 k1')
        (fun c' hc' => hv c' (List.mem_cons_of_mem _ hc')) this
      refine ⟨p1', ?_, e2, e3, e4, e5.trans (disk_writes k1).cube⟩
      show (c.run p' >>= fun q => runAll DiskCall.run q ks) = .ok p1'
      rw [k1']; exact e1
    · push Not at ht
      rw [h.disk_early c hc ht.1 ht.2] at this
      cases this

theorem InUnits.rebinStream {s s' s1 s1' : Stream} (h : SoundStream s g f2 center rotation)
    (h' : SoundStream s' (g.withV nv v) f2 center rotation) (hU : InUnits s.base s'.base g 1) (hθ : s'.thetaLims = s.thetaLims)
    (hg : g.Proper) (hg' : (g.withV nv v).Proper) (c : StreamCall) (hv : c.Valid)
    (ht : s.base.logPxt ≠ none ∨ c.field ≠ .mean) (hr : c.run s = .ok s1) (hr' : c.run s' = .ok s1') :
    InUnits s1.base s1'.base g 1 ∧ s1'.thetaLims = s1.thetaLims := by
  have hnv := hg'.nv
  cases c with
  | setPt lmd phi q =>
    obtain ⟨p1, j1, j2⟩ := bind_ok hr
    obtain ⟨p1', j1', j2'⟩ := bind_ok hr'
    cases j2
    cases j2'
    exact ⟨hU.setPt j1 j1', hθ⟩
  | setPxt theta muR sig n =>
    obtain ⟨v1, v2, v3, v4, v5⟩ := hv
    obtain ⟨A, k1, k2⟩ := stream_setPxt h.base.built hg (muR := muR) (le_min v1.1 v2.1) (max_le v1.2 v2.2) v3 v4 v5
    obtain ⟨A', k1', k2'⟩ := stream_setPxt h'.base.built hg' (muR := muR) (le_min v1.1 v2.1) (max_le v1.2 v2.2) v3 v4 v5
    obtain rfl : _ = s1 := Except.ok.inj (k1.symm.trans hr)
    obtain rfl : _ = s1' := Except.ok.inj (k1'.symm.trans hr')
    refine ⟨⟨hU.ssps, hU.f2, hU.zGrid, hU.tPars, hU.logPt, fun B hB => ?_, hU.metal, hU.mean, hU.disp⟩, rfl⟩
    cases hB
    have hT := streamTotal_pos (center := center) (rotation := rotation) (theta := theta) (muR := muR) hg v4 v5
    refine ⟨A', _, rfl, fun c hc => ?_, k2, (marr_withV hnv (by decide) k2').congr fun c hc => ?_⟩
    · exact div_pos (div_pos (streamW_pos hg v4 v5 hc.2.2.1 hc.2.2.2.1) hT)
        (mul_pos (sub_pos.2 (hg.x _ hc.2.2.1)) (sub_pos.2 (hg.y _ hc.2.2.2.1)))
    · rw [one_pow, div_one]; rfl
  | setTDep τ =>
    obtain ⟨B, k1, k2⟩ := stream_setTDep h.base.built hg τ
    obtain ⟨B', k1', k2'⟩ := stream_setTDep h'.base.built hg' τ
    obtain rfl : _ = s1 := Except.ok.inj (k1.symm.trans hr)
    obtain rfl : _ = s1' := Except.ok.inj (k1'.symm.trans hr')
    refine ⟨⟨hU.ssps, hU.f2, hU.zGrid, hU.tPars, hU.logPt, hU.space, fun B hB => ?_, hU.mean, hU.disp⟩, hθ⟩
    cases hB
    refine ⟨B', _, rfl, k2, (marr_withV hnv (by decide) k2').congr fun c hc => ?_⟩
    beta_reduce
    rw [hU.zGrid]; rfl
  | setMuV lims =>
    have h1 : s.base.logPxt ≠ none := by simpa [StreamCall.field] using ht
    obtain ⟨θ, e⟩ := Option.ne_none_iff_exists'.1 fun e => h1 (h.space.1 e)
    obtain ⟨A, k1, k2⟩ := stream_setMuV h.base.built (lims := lims) e (h.theta θ e)
    obtain ⟨A', k1', k2'⟩ := stream_setMuV h'.base.built (lims := lims) (hθ.trans e) (h.theta θ e)
    obtain rfl : _ = s1 := Except.ok.inj (k1.symm.trans hr)
    obtain rfl : _ = s1' := Except.ok.inj (k1'.symm.trans hr')
    refine ⟨⟨hU.ssps, hU.f2, hU.zGrid, hU.tPars, hU.logPt, hU.space, hU.metal, fun B hB => ?_, hU.disp⟩, hθ⟩
    cases hB
    exact ⟨A', _, rfl, k2, (marr_withV hnv (by decide) k2').congr fun c hc => rfl⟩
  | setSigV sigV =>
    obtain ⟨A, k1, k2⟩ := stream_setSigV h.base.built sigV
    obtain ⟨A', k1', k2'⟩ := stream_setSigV h'.base.built sigV
    obtain rfl : _ = s1 := Except.ok.inj (k1.symm.trans hr)
    obtain rfl : _ = s1' := Except.ok.inj (k1'.symm.trans hr')
    refine ⟨⟨hU.ssps, hU.f2, hU.zGrid, hU.tPars, hU.logPt, hU.space, hU.metal, hU.mean, fun B hB => ?_⟩, hθ⟩
    cases hB
    exact ⟨A', _, rfl, k2, (marr_withV hnv (by decide) k2').congr fun c hc => rfl⟩

theorem InUnits.rebinStreamCalls (hg : g.Proper) (hg' : (g.withV nv v).Proper) :
    ∀ (ks : List StreamCall) (s s' s1 : Stream), SoundStream s g f2 center rotation → SoundStream s' (g.withV nv v) f2 center rotation →
      InUnits s.base s'.base g 1 → s'.thetaLims = s.thetaLims → (∀ c ∈ ks, c.Valid) → runAll StreamCall.run s ks = .ok s1 →
      ∃ s1', runAll StreamCall.run s' ks = .ok s1' ∧
        SoundStream s1 g f2 center rotation ∧ SoundStream s1' (g.withV nv v) f2 center rotation ∧ InUnits s1.base s1'.base g 1 ∧
        s1.base.cube = s.base.cube
  | [], s, s', s1, h, h', hU, _, _, hr => by cases hr; exact ⟨s', rfl, h, h', hU, rfl⟩
  | c :: ks, s, s', s1, h, h', hU, hθ, hv, hr => by
    have hc := hv c List.mem_cons_self
    have : (StreamCall.run s c >>= fun q => runAll StreamCall.run q ks) = .ok s1 := hr
    by_cases ht : s.base.logPxt ≠ none ∨ c.field ≠ .mean
    · obtain ⟨s2, k1, k2⟩ := h.step hg c hc ht
      obtain ⟨s2', k1', k2'⟩ := h'.step hg' c hc (by
        refine ht.imp (fun h1 => ?_) id
        obtain ⟨A, e⟩ := Option.ne_none_iff_exists'.1 h1
        obtain ⟨A', -, e', -⟩ := hU.space A e
        rw [e']; simp)
      rw [k1] at this
      obtain ⟨f1, f2⟩ := InUnits.rebinStream h h' hU hθ hg hg' c hc ht k1 k1'
      obtain ⟨s1', e1, e2, e3, e4, e5⟩ := InUnits.rebinStreamCalls hg hg' ks s2 s2' s1 k2 k2' f1 f2
        (fun c' hc' => hv c' (List.mem_cons_of_mem _ hc')) this
      refine ⟨s1', ?_, e2, e3, e4, e5.trans (stream_writes k1).1.cube⟩
      show (c.run s' >>= fun q => runAll StreamCall.run q ks) = .ok s1'
      rw [k1']; exact e1
    · exfalso
      push Not at ht
      rcases stream_history hg [c] s h (by simpa using hc) with ⟨s2, j1, -⟩ | ⟨j1, -⟩
      · cases c with
        | setMuV lims =>
          have e : s.thetaLims = none := h.space.2 ht.1
          simp only [StreamCall.run, Stream.setMuV, e] at this
          obtain ⟨_, j, _⟩ := bind_ok this
          obtain ⟨_, _, j⟩ := bind_ok j
          obtain ⟨_, j, _⟩ := bind_ok j
          cases j
        | _ => simp [StreamCall.field] at ht
      · cases hq : StreamCall.run s c with
        | error e => rw [hq] at this; cases this
        | ok s2 => simp only [runAll, hq, Py.ok_bind] at j1; cases j1

/-- Components with the same arrays have the same ingredients. -/
theorem InUnits.rebinned (hU : InUnits p p' g 1) (h : ParamIs p g m L) (hc : CubeIs p'.cube (g.withV nv v)) (hg' : (g.withV nv v).Proper) :
    ParamIs p' (g.withV nv v) m L := by
  have back : ∀ {c : Cell}, (g.withV nv v).Has c → g.Has { c with v := 0 } := fun hc => ⟨hc.1, h.proper.nv, hc.2.2⟩
  refine ⟨hg', hc, ⟨h.norm.pt, h.norm.px, h.norm.pz, h.norm.sig, h.norm.sumT, h.norm.sumX, h.norm.sumZ⟩, ?_, ?_, ?_, ?_, ?_, ?_, h.lightNonneg⟩
  · obtain ⟨A, e, hA⟩ := h.logPt
    refine ⟨A, hU.logPt.trans e, hA.1, fun c hc => ?_⟩
    exact hA.2 { c with v := 0 } (back hc)
  · obtain ⟨A, e, hA⟩ := h.logPxt
    obtain ⟨A', q, e', hq, k1, k2⟩ := hU.space A e
    refine ⟨A', e', ?_⟩
    have hA' := larr_iff.1 ((isArr_cond_iff (by decide) (by decide)).1 hA)
    refine (isArr_cond_iff (by decide) (by decide)).2 (larr_iff.2 ((marr_ofV h.proper.nv (by decide) k2).congr fun c hc => ?_))
    have i1 := hA'.2 _ (back hc)
    have i2 := k1.2 _ (back hc)
    beta_reduce
    rw [one_pow, div_one]
    exact i2.symm.trans i1
  · obtain ⟨A, e, hA⟩ := h.logPztx
    obtain ⟨A', q, e', k1, k2⟩ := hU.metal A e
    refine ⟨A', e', ?_⟩
    have hA' := larr_iff.1 ((isArr_cond_iff (by decide) (by decide)).1 hA)
    refine (isArr_cond_iff (by decide) (by decide)).2 (larr_iff.2 ((marr_ofV h.proper.nv (by decide) k2).congr fun c hc => ?_))
    exact (k1.2 _ (back hc)).symm.trans (hA'.2 _ (back hc))
  · obtain ⟨A, e, hA⟩ := h.muV
    obtain ⟨A', q, e', k1, k2⟩ := hU.mean A e
    refine ⟨A', e', ?_⟩
    refine MArr.isArr (w := ['t','x']) (by decide) ((marr_ofV h.proper.nv (by decide) k2).congr fun c hc => ?_)
    exact (k1.2 _ (back hc)).symm.trans (hA.2 _ (back hc))
  · obtain ⟨A, e, hA⟩ := h.sigV
    obtain ⟨A', q, e', k1, k2⟩ := hU.disp A e
    refine ⟨A', e', ?_⟩
    refine MArr.isArr (w := ['t','x']) (by decide) ((marr_ofV h.proper.nv (by decide) k2).congr fun c hc => ?_)
    exact (k1.2 _ (back hc)).symm.trans (hA.2 _ (back hc))
  · rw [hU.ssps]
    exact ⟨h.light.1, fun c hc => h.light.2 { c with v := 0 } (back hc)⟩

theorem init_rebin {cube cube' : IFUCube} (hc : CubeIs cube g) (hc' : CubeIs cube' (g.withV nv v)) (hs : cube'.ssps = cube.ssps) (hg : g.Proper)
    (hg' : (g.withV nv v).Proper) (f2 : ℝ) (center : ℝ × ℝ) (rotation : ℝ) : ∃ p p', Param.init f2 cube center rotation = .ok p ∧ p.cube = cube ∧
      Sound p g f2 center rotation ∧ Param.init f2 cube' center rotation = .ok p' ∧ p'.cube = cube' ∧ Sound p' (g.withV nv v) f2 center rotation ∧
      InUnits p p' g 1 ∧ (∀ f : Field, ∀ a ∈ f.get p, a = none) ∧ ∀ f : Field, ∀ a ∈ f.get p', a = none := by
  obtain ⟨p0, k1, k2, k3, k4⟩ := init_sound hc hg f2 center rotation
  obtain ⟨p0', k1', k2', k3', k4'⟩ := init_sound hc' hg' f2 center rotation
  have none_of : ∀ f : Field, ∀ a ∈ f.get p0, ∀ A, a ≠ some A := fun f a ha A e => by rw [k4 f a ha] at e; cases e
  have l : p0.logPt = none := k4 .age _ (by simp [Field.get])
  have l' : p0'.logPt = none := k4' .age _ (by simp [Field.get])
  refine ⟨p0, p0', k1, k2, k3, k1', k2', k3', ⟨by rw [k2', k2, hs], by rw [k3'.built.f2, k3.built.f2], ?_, by rw [k3'.unaged l', k3.unaged l],
    by rw [l, l'], fun A hA => absurd hA (none_of .space _ (by simp [Field.get]) A), fun A hA => absurd hA (none_of .metal _ (by simp [Field.get]) A),
    fun A hA => absurd hA (none_of .mean _ (by simp [Field.get]) A), fun A hA => absurd hA (none_of .disp _ (by simp [Field.get]) A)⟩, k4, k4'⟩
  have e1 := k3.built.zGrid
  have e2 := k3'.built.zGrid
  rw [k2] at e1
  rw [k2'] at e2
  unfold Param.zInterpGrid at e1 e2
  rw [hs] at e2
  exact Except.ok.inj (e2.symm.trans e1)

/-! ### C104 -/

/-- **C104**, growing disks. Run the same setter calls on a cube with other velocity bins: they succeed again and all answers are the same, but for
distributions over the velocity bins. -/
theorem C104_disk_velocity_bins {cube cube' : IFUCube} (hc : CubeIs cube g) (hc' : CubeIs cube' (g.withV nv v)) (hs : cube'.ssps = cube.ssps) (hg : g.Proper)
    (hnv : 0 < nv) (hvv : ∀ i < nv, v i < v (i + 1)) (hl : IsArr g ['t','z'] cube.ssps.lightWeights (fun c => .fin (L c.t c.z))) (hL : ∀ t z, 0 < L t z)
    (hx : ∃ c, g.Has c ∧ frameX g center rotation c ≠ 0) (ks : List DiskCall) (hv : ∀ k ∈ ks, k.Valid) (hall : ∀ f : Field, ∃ k ∈ ks, k.field = f)
    (hp : makeDisk f2 cube center rotation ks = .ok p) :
    ∃ p', makeDisk f2 cube' center rotation ks = .ok p' ∧ SameButBins p p' g nv v := by
  have hg' := hg.withV hnv hvv
  obtain ⟨p0, p0', k1, k2, k3, k1', k2', k3', hU, k4, -⟩ := init_rebin hc hc' hs hg hg' f2 center rotation
  have hr : runAll DiskCall.run p0 ks = .ok p := by
    unfold makeDisk at hp
    rwa [k1] at hp
  obtain ⟨p', e1, e2, e3, e4, e5⟩ := InUnits.rebinCalls hg hg' hx ks p0 p0' p k3 k3' hU hv hr
  refine ⟨p', ?_, ?_⟩
  · unfold makeDisk
    rw [k1']; exact e1
  have hf : ∀ f : Field, none ∉ f.get p := fun f => by
    rw [(set_fields (base := fun p => p) (fun {s s' k} h => disk_writes h) ks p0 p hr (fun f => Or.inr (k4 f)) f).1]
    exact Or.inr (hall f)
  obtain ⟨m, i1, i2, i3⟩ := e2.paramIs hg (by rw [e5, k2]; exact hl) (fun t z => (hL t z).le) hf
  exact i1.sameButBins (e4.rebinned i1 e3.built.cubeIs hg') (i1.shines (fun t _ z _ => hL t z) i2 i3) e4.f2

/-- **C104**, streams. -/
theorem C104_stream_velocity_bins {cube cube' : IFUCube} (hc : CubeIs cube g) (hc' : CubeIs cube' (g.withV nv v)) (hs : cube'.ssps = cube.ssps) (hg : g.Proper)
    (hnv : 0 < nv) (hvv : ∀ i < nv, v i < v (i + 1)) (hl : IsArr g ['t','z'] cube.ssps.lightWeights (fun c => .fin (L c.t c.z))) (hL : ∀ t z, 0 < L t z)
    (ks : List StreamCall) (hv : ∀ k ∈ ks, k.Valid) (hall : ∀ f : Field, ∃ k ∈ ks, k.field = f) {s : Stream}
    (hp : makeStream f2 cube center rotation ks = .ok s) :
    ∃ s', makeStream f2 cube' center rotation ks = .ok s' ∧ SameButBins s.base s'.base g nv v := by
  have hg' := hg.withV hnv hvv
  obtain ⟨p0, p0', k1, k2, k3, k1', k2', k3', hU, k4, k4'⟩ := init_rebin hc hc' hs hg hg' f2 center rotation
  have hr : runAll StreamCall.run ⟨p0, none⟩ ks = .ok s := by
    unfold makeStream Stream.init at hp
    rwa [k1] at hp
  have n : p0.logPxt = none := k4 .space _ (by simp [Field.get])
  have n' : p0'.logPxt = none := k4' .space _ (by simp [Field.get])
  obtain ⟨s', e1, e2, e3, e4, e5⟩ := InUnits.rebinStreamCalls (f2 := f2) (center := center) (rotation := rotation) hg hg' ks ⟨p0, none⟩ ⟨p0', none⟩ s
    ⟨k3, by simp, by simp [n]⟩ ⟨k3', by simp, by simp [n']⟩ hU rfl hv hr
  refine ⟨s', ?_, ?_⟩
  · unfold makeStream Stream.init
    rw [k1']; exact e1
  have hf : ∀ f : Field, none ∉ f.get s.base := fun f => by
    rw [(set_fields (base := fun s => s.base) (fun {s s' k} h => (stream_writes h).1) ks ⟨p0, none⟩ s hr (fun f => Or.inr (k4 f)) f).1]
    exact Or.inr (hall f)
  obtain ⟨m, i1, i2, i3⟩ := e2.base.paramIs hg (by rw [e5, k2]; exact hl) (fun t z => (hL t z).le) hf
  exact i1.sameButBins (e4.rebinned i1 e3.base.built.cubeIs hg') (i1.shines (fun t _ z _ => hL t z) i2 i3) e4.f2

/-! ### The hypotheses are met -/

/-- The cube with other velocity bins: `IFUCube` with another velocity range and number of bins. -/
theorem C104_cube {s : SSPs} {nt nz : ℕ} {t z : ℕ → ℝ} (hs : SspsAre s nt nz t z) (nx ny nv nv' : ℕ) (hx : 0 < nx) (hy : 0 < ny) (hv : 0 < nv) (hv' : 0 < nv')
    (x1rng x2rng vrng vrng' : ℝ × ℝ) : ∃ cube cube', IFUCube.init s nx ny nv x1rng x2rng vrng = .ok cube ∧
      IFUCube.init s nx ny nv' x1rng x2rng vrng' = .ok cube' ∧ cube'.ssps = cube.ssps ∧ CubeIs cube (cubeGrid nt nz t z nx ny nv x1rng x2rng vrng) ∧
      CubeIs cube' ((cubeGrid nt nz t z nx ny nv x1rng x2rng vrng).withV nv' (evenEdges vrng' nv')) := by
  obtain ⟨c, h1, h2, h3, -⟩ := C03_constructor hs nx ny nv hx hy hv x1rng x2rng vrng
  obtain ⟨c', h1', h2', h3', -⟩ := C03_constructor hs nx ny nv' hx hy hv' x1rng x2rng vrng'
  exact ⟨c, c', h1, h1', by rw [h3, h3'], h2, h2'⟩

/-- The demonstration disk with ten bins of 50 km/s from -200 km/s instead of four of 100 km/s from -100 km/s: bin 0 consists of the new bins 2 and 3. -/
example : ∃ (cube cube' : IFUCube) (p p' : Param), CubeIs cube demoGrid ∧ CubeIs cube' (demoGrid.withV 10 (evenEdges (-200, 300) 10)) ∧
    makeDisk 1 cube (0, 3 / 2) 0 demoCalls = .ok p ∧ makeDisk 1 cube' (0, 3 / 2) 0 demoCalls = .ok p' ∧
    SameButBins p p' demoGrid 10 (evenEdges (-200, 300) 10) ∧ evenEdges (-200, 300) 10 2 = demoGrid.v 0 ∧ evenEdges (-200, 300) 10 4 = demoGrid.v 1 := by
  obtain ⟨cube, cube', h1, h1', hs, hc, hc'⟩ := C104_cube demoSSPs_are 5 6 4 10 (by norm_num) (by norm_num) (by norm_num) (by norm_num) (-1, 1) (0, 3) (-100, 300) (-200, 300)
  have es : cube.ssps = demoSSPs := by
    obtain ⟨c, i1, -, i2⟩ := demoCube_exists
    have : c = cube := Except.ok.inj (i1.symm.trans h1)
    rw [← this]; exact i2
  obtain ⟨p0, k1, k2, k3, k4⟩ := init_sound hc demoGrid_proper 1 (0, 3 / 2) 0
  have off : ∃ c, demoGrid.Has c ∧ frameX demoGrid (0, 3 / 2) 0 c ≠ 0 :=
    ⟨⟨0, 0, 0, 0, 0⟩, by simp [Grid.Has, demoGrid, cubeGrid], by simp [frameX, centre, demoGrid, cubeGrid, evenEdges]; norm_num⟩
  rcases disk_history demoGrid_proper off _ p0 k3 demoCalls_valid with ⟨p, j1, j2, j3⟩ | ⟨-, -, j⟩
  · have hp : makeDisk 1 cube (0, 3 / 2) 0 demoCalls = .ok p := by
      unfold makeDisk
      rw [k1]; exact j1
    obtain ⟨p', e1, e2⟩ := C104_disk_velocity_bins (L := fun t _ => t + 1) hc hc' hs demoGrid_proper (by norm_num) (fun i _ => by unfold evenEdges; push_cast; norm_num)
      (by rw [es]; exact ⟨rfl, fun c _ => rfl⟩) (fun t _ => by positivity) off demoCalls demoCalls_valid
      (fun f => by cases f <;> simp [demoCalls, DiskCall.field]) hp
    exact ⟨cube, cube', p, p', hc, hc', hp, e1, e2, by simp [evenEdges, demoGrid, cubeGrid]; norm_num, by simp [evenEdges, demoGrid, cubeGrid]; norm_num⟩
  · exfalso
    obtain ⟨pre, k, post, j1, j2, j3⟩ := j
    cases pre with
    | nil => simp only [List.nil_append, demoCalls, List.cons.injEq] at j1; rw [← j1.1] at j3; exact j3.1 rfl
    | cons k' pre =>
      simp only [List.cons_append, demoCalls, List.cons.injEq] at j1
      exact j2 k' (by simp) (by rw [← j1.1]; rfl)

/-- A demonstration stream with the same bins. -/
example : ∃ (cube cube' : IFUCube) (s s' : Stream) (ks : List StreamCall), CubeIs cube demoGrid ∧ CubeIs cube' (demoGrid.withV 10 (evenEdges (-200, 300) 10)) ∧
    makeStream 1 cube (0, 3 / 2) 0 ks = .ok s ∧ makeStream 1 cube' (0, 3 / 2) 0 ks = .ok s' ∧
    SameButBins s.base s'.base demoGrid 10 (evenEdges (-200, 300) 10) := by
  obtain ⟨cube, cube', h1, h1', hs, hc, hc'⟩ := C104_cube demoSSPs_are 5 6 4 10 (by norm_num) (by norm_num) (by norm_num) (by norm_num) (-1, 1) (0, 3) (-100, 300) (-200, 300)
  have es : cube.ssps = demoSSPs := by
    obtain ⟨c, i1, -, i2⟩ := demoCube_exists
    have : c = cube := Except.ok.inj (i1.symm.trans h1)
    rw [← this]; exact i2
  have hpi := Real.two_le_pi
  let ks : List StreamCall := [.setPt 15 0.5 (0.05, 0.95), .setPxt (0, 1) (1 / 2, 1) (1 / 4) 10, .setTDep 5, .setMuV (-50, 100), .setSigV 20]
  have hv : ∀ c ∈ ks, c.Valid := by
    intro c hc
    simp only [ks, List.mem_cons, List.not_mem_nil, or_false] at hc
    rcases hc with rfl | rfl | rfl | rfl | rfl
    · simp only [StreamCall.Valid, ValidSfh]; norm_num
    · refine ⟨⟨by linarith, by linarith⟩, ⟨?_, ?_⟩, by norm_num, by norm_num, by norm_num⟩
      · show -Real.pi ≤ 1; linarith
      · show 1 ≤ Real.pi; linarith
    · trivial
    · trivial
    · show (0:ℝ) < 20; norm_num
  obtain ⟨p0, k1, k2, k3, k4⟩ := init_sound hc demoGrid_proper 1 (0, 3 / 2) 0
  have n : p0.logPxt = none := k4 .space _ (by simp [Field.get])
  rcases stream_history demoGrid_proper ks ⟨p0, none⟩ ⟨k3, by simp, by simp [n]⟩ hv with ⟨s, j1, j2, j3⟩ | ⟨-, -, j⟩
  · have hp : makeStream 1 cube (0, 3 / 2) 0 ks = .ok s := by
      unfold makeStream Stream.init
      rw [k1]; exact j1
    obtain ⟨s', e1, e2⟩ := C104_stream_velocity_bins (L := fun t _ => t + 1) hc hc' hs demoGrid_proper (by norm_num) (fun i _ => by unfold evenEdges; push_cast; norm_num)
      (by rw [es]; exact ⟨rfl, fun c _ => rfl⟩) (fun t _ => by positivity) ks hv
      (fun f => by cases f <;> simp [ks, StreamCall.field]) hp
    exact ⟨cube, cube', s, s', ks, hc, hc', hp, e1, e2⟩
  · exfalso
    obtain ⟨pre, k, post, j1, j2, j3⟩ := j
    match pre, j1, j2 with
    | [], j1, _ => simp only [List.nil_append, ks, List.cons.injEq] at j1; rw [← j1.1] at j3; cases j3
    | [_], j1, _ => simp only [List.cons_append, List.nil_append, ks, List.cons.injEq] at j1; rw [← j1.2.1] at j3; cases j3
    | k1 :: k2 :: pre, j1, j2 =>
      simp only [List.cons_append, ks, List.cons.injEq] at j1
      exact j2 k2 (by simp) (by rw [← j1.2.1]; rfl)

end PKM
