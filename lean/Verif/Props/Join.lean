import Verif.Props.ParticleMoments
import Verif.Props.MixAlgebra

/-!
# C77: joining lists of particles is mixing their components

Several lists of particles, one component made from each, mixed with weights proportional to the masses in range, against one component
made from the joined list.
-/

open scoped Classical

noncomputable section

namespace PKM
open Np Component

variable {cube : IFUCube} {g : Grid} {L : ℕ → ℕ → ℝ} {lw : Bool} {SS : List (List Star)} {cubed : Arr Num → Option (Arr Num) → Prop}

/-! ### Specification -/

/-- A mixture of components: member `i` is made from the particles `SS[i]`, on the same cube; its weight is the fraction of the mass in
range. `cubed` says what is known of the datacube a member may hold (as attribute `ybar`). -/
def MixtureOfParticles (cube : IFUCube) (g : Grid) (SS : List (List Star)) (cubed : Arr Num → Option (Arr Num) → Prop) (m : Mix) : Prop :=
  ∃ cs : List Child, Mix.init cube cs (SS.map fun S => g.massCovered S / g.massCovered SS.flatten) = .ok m ∧
    List.Forall₂ (fun S ch => ∃ stored rep ybar, fromStars cube S = .ok (stored, rep) ∧
      ch = Component.child (baseSelf cube stored) ybar ∧ cubed stored ybar) SS cs

/-- All lists have non-negative masses, and some mass in range. -/
def Grid.Usable (g : Grid) (SS : List (List Star)) : Prop := SS ≠ [] ∧ ∀ S ∈ SS, (∀ s ∈ S, 0 ≤ s.mass) ∧ 0 < g.massCovered S

/-! ### Lemmas -/

theorem massIn_flatten (SS : List (List Star)) (c : Cell) : g.massIn SS.flatten c = (SS.map fun S => g.massIn S c).sum := by
  induction SS with
  | nil => simp [Grid.massIn]
  | cons S SS ih => simp only [Grid.massIn, List.flatten_cons, List.map_append, List.sum_append, List.map_cons, List.sum_cons] at ih ⊢; rw [ih]

theorem massCovered_flatten (SS : List (List Star)) : g.massCovered SS.flatten = (SS.map g.massCovered).sum := by
  induction SS with
  | nil => simp [Grid.massCovered]
  | cons S SS ih =>
    simp only [Grid.massCovered, List.flatten_cons, List.map_append, List.sum_append, List.map_cons, List.sum_cons] at ih ⊢; rw [ih]

theorem Grid.Usable.covered_pos (h : g.Usable SS) : 0 < g.massCovered SS.flatten := by
  rw [massCovered_flatten]
  refine List.sum_pos _ (fun x hx => ?_) (by simpa using h.1)
  obtain ⟨S, hS, rfl⟩ := List.mem_map.1 hx
  exact (h.2 S hS).2

theorem Grid.Usable.mass_nonneg (h : g.Usable SS) : ∀ s ∈ SS.flatten, 0 ≤ s.mass := by
  intro s hs
  obtain ⟨S, hS, hs⟩ := List.mem_flatten.1 hs
  exact (h.2 S hS).1 s hs

theorem list_sum_getD {α : Type} (l : List α) (d : α) (f : α → ℝ) : (l.map f).sum = ∑ i : Fin l.length, f (l.getD i d) := by
  rw [← List.sum_ofFn]
  congr 1
  apply List.ext_getElem
  · simp
  · intro i h1 h2
    simp at h1
    simp [List.getD_eq_getElem?_getD, List.getElem?_eq_getElem h1]

/-- Weights of the mixture. -/
def joinW (g : Grid) (SS : List (List Star)) (i : ℕ) : ℝ :=
  if i < SS.length then g.massCovered (SS.getD i []) / g.massCovered SS.flatten else 1

theorem join_rho (h : g.Usable SS) : mixRho SS.length (joinW g SS) (fun i => g.starDensity (SS.getD i [])) = g.starDensity SS.flatten := by
  funext c
  unfold mixRho Grid.starDensity
  have hM := h.covered_pos.ne'
  by_cases hc : g.Has c
  · simp only [hc, if_true]
    rw [massIn_flatten, list_sum_getD SS [] (fun S => g.massIn S c), Finset.sum_div, Finset.sum_div]
    refine Finset.sum_congr rfl fun i _ => ?_
    have hi : SS.getD i [] ∈ SS := by
      rw [List.getD_eq_getElem?_getD, List.getElem?_eq_getElem i.2]
      exact List.getElem_mem i.2
    have := ((h.2 _ hi).2).ne'
    rw [joinW, if_pos i.2]
    field_simp
  · simp [hc]

/-- What the mixture is. -/
theorem join_plain (hc : CubeIs cube g) (hg : g.Proper) (hlight : IsArr g ['t','z'] cube.ssps.lightWeights (fun c => .fin (L c.t c.z)))
    (hL : ∀ t z, 0 ≤ L t z) (h : g.Usable SS) {m : Mix} (hm : MixtureOfParticles cube g SS cubed m) :
    m.cube = cube ∧ PlainMix m g SS.length (joinW g SS) (fun i => g.starDensity (SS.getD i [])) L ∧
    ∀ (i : ℕ) (hi : i < m.children.length), ∃ stored ybar, m.children[i] = Component.child (baseSelf m.cube stored) ybar ∧
      BaseIs m.cube stored g (g.starDensity (SS.getD i [])) L ∧ cubed stored ybar := by
  obtain ⟨cs, h1, h2⟩ := hm
  obtain ⟨rfl, e1, e2, e3⟩ := mixInit_ok h1
  have hl := h2.length_eq
  have hlast : ∀ (i : ℕ) (hi : i < cs.length), ∃ stored ybar, cs[i] = Component.child (baseSelf cube stored) ybar ∧
      BaseIs cube stored g (g.starDensity (SS.getD i [])) L ∧ cubed stored ybar := by
    intro i hi
    have hi' : i < SS.length := by rw [hl]; exact hi
    obtain ⟨st, rep, yb, a1, a2, a3⟩ := (List.forall₂_iff_get.1 h2).2 i hi' hi
    have hS := h.2 SS[i] (List.getElem_mem hi')
    obtain ⟨st', b1, b2⟩ := C39_component hc hg hlight hL SS[i] hS.1 hS.2
    have e : SS.getD i [] = SS[i] := by rw [List.getD_eq_getElem?_getD, List.getElem?_eq_getElem hi']; rfl
    rw [List.get_eq_getElem] at a1
    rw [b1] at a1
    injection a1 with a1
    injection a1 with a1 _
    subst a1
    exact ⟨st', yb, a2, by rw [e]; exact b2, a3⟩
  refine ⟨rfl, ⟨List.length_pos_of_ne_nil h.1, hl.symm, ?_, fun i => ?_, fun i c => ?_, fun i hi => ?_⟩, hlast⟩
  · apply List.ext_getElem
    · simp
    · intro i h3 h4
      simp at h3
      simp [joinW, h3]
  · unfold joinW
    split
    · next hi =>
      refine div_pos (h.2 _ ?_).2 h.covered_pos
      rw [List.getD_eq_getElem?_getD, List.getElem?_eq_getElem hi]
      exact List.getElem_mem hi
    · exact one_pos
  · unfold Grid.starDensity
    split
    · next hc' =>
      by_cases hi : i < SS.length
      · have hi' : SS.getD i [] ∈ SS := by
          rw [List.getD_eq_getElem?_getD, List.getElem?_eq_getElem hi]
          exact List.getElem_mem hi
        exact div_nonneg (div_nonneg (massIn_nonneg (h.2 _ hi').1 c) (cellVolume_pos hg hc').le) (h.2 _ hi').2.le
      · rw [List.getD_eq_getElem?_getD, List.getElem?_eq_none (not_lt.1 hi)]
        simp [Grid.massIn]
    · exact le_rfl
  · obtain ⟨st, yb, a1, a2, -⟩ := hlast i hi
    exact ⟨st, yb, a1, a2⟩

/-! ### Results -/

/-- The constructors accept the lists, the joined list and the weights. -/
theorem C77_accepted (hc : CubeIs cube g) (hg : g.Proper) (h : g.Usable SS) (ybar : List Star → Option (Arr Num)) :
    ∃ (stored : List Star → Arr Num) (joined : Arr Num) (m : Mix), (∀ S ∈ SS, fromStars cube S = .ok (stored S, g.report S)) ∧
      fromStars cube SS.flatten = .ok (joined, g.report SS.flatten) ∧
      Mix.init cube (SS.map fun S => Component.child (baseSelf cube (stored S)) (ybar S))
        (SS.map fun S => g.massCovered S / g.massCovered SS.flatten) = .ok m ∧ MixtureOfParticles cube g SS (fun _ _ => True) m := by
  have hst : ∀ S, ∃ st, fromStars cube S = .ok (st, g.report S) := fun S => by
    obtain ⟨st, h1, -⟩ := fromStars_eval hc hg S
    exact ⟨st, h1⟩
  choose st hst using hst
  have hM := h.covered_pos
  have hw : (SS.map fun S => g.massCovered S / g.massCovered SS.flatten).sum = 1 := by
    have : (SS.map fun S => g.massCovered S / g.massCovered SS.flatten) = SS.map fun S => (g.massCovered S) * (g.massCovered SS.flatten)⁻¹ := rfl
    rw [this, List.sum_map_mul_right]
    change (SS.map g.massCovered).sum * _ = 1
    rw [← massCovered_flatten]
    exact mul_inv_cancel₀ hM.ne'
  have key := (C28_constructor cube (SS.map fun S => Component.child (baseSelf cube (st S)) (ybar S))
    (SS.map fun S => g.massCovered S / g.massCovered SS.flatten)).2 (by
      rw [hw]
      push Not
      refine ⟨by simp, fun w hw => ?_, by norm_num⟩
      obtain ⟨S, hS, rfl⟩ := List.mem_map.1 hw
      exact div_pos (h.2 S hS).2 hM)
  refine ⟨st, _, _, fun S _ => hst S, hst _, key, _, key, ?_⟩
  rw [List.forall₂_map_right_iff, List.forall₂_same]
  exact fun S _ => ⟨st S, _, ybar S, hst S, rfl, trivial⟩

theorem join_light (hg : g.Proper) {cell : Star → Cell} (hl : g.Locates cell) (h : g.Usable SS)
    (hT : ∀ S ∈ SS, 0 < starTotal S g.inRange (starWeight L true cell)) :
    ∀ i < SS.length, 0 < totalLight g L (massP g (g.starDensity (SS.getD i []))) := by
  intro i hi
  have hi' : SS.getD i [] ∈ SS := by
    rw [List.getD_eq_getElem?_getD, List.getElem?_eq_getElem hi]
    exact List.getElem_mem hi
  rw [starLight hg hl]
  exact div_pos (hT _ hi') (h.2 _ hi').2

/-- All 65 distributions of the mixture are those of the component made from the joined list. -/
theorem C77_distributions (hc : CubeIs cube g) (hg : g.Proper) (hlight : IsArr g ['t','z'] cube.ssps.lightWeights (fun c => .fin (L c.t c.z)))
    (hL : ∀ t z, 0 ≤ L t z) (h : g.Usable SS) {cell : Star → Cell} (hl : g.Locates cell) {m : Mix} (hm : MixtureOfParticles cube g SS cubed m)
    (density lw : Bool) (hT : lw = true → ∀ S ∈ SS, 0 < starTotal S g.inRange (starWeight L true cell)) :
    ∃ joined rep, fromStars cube SS.flatten = .ok (joined, rep) ∧
      (∀ w ∈ marginals, Same (getP (baseSelf cube joined) w density lw) (Mix.getP m w true density lw) g w) ∧
      ∀ a b, (a, b) ∈ conditionals →
        Same (getP (baseSelf cube joined) (condStr a b) density lw) (Mix.getP m (condStr a b) true density lw) g (condStr a b) := by
  obtain ⟨rfl, hP, hch⟩ := join_plain hc hg hlight hL h hm
  obtain ⟨st, h1, h2⟩ := C39_component hc hg hlight hL SS.flatten h.mass_nonneg h.covered_pos
  rw [← join_rho h] at h2
  exact ⟨st, _, h1, hP.agrees h2 density lw fun e => hP.light_pos (join_light hg hl h (hT e))⟩

theorem SameWhere.mono {ok ok' : Cell → Prop} {s i : List ℕ} {r r' : Py (Arr Num)} {w : PyStr} (h : SameWhere ok s i r r' g w)
    (he : ∀ c, g.Has c → ok' c → ok c) : SameWhere ok' s i r r' g w := by
  obtain ⟨p, p', h1, h2, h3, h4, h5⟩ := h
  exact ⟨p, p', h1, h2, h3, h4, fun c hc ho => h5 c hc (he c hc ho)⟩

/-- So are means and central moments of all orders in all bins where every list has particles; and covariances and L-moments if
every list has particles in all bins. -/
theorem C77_moments (hc : CubeIs cube g) (hg : g.Proper) (hlight : IsArr g ['t','z'] cube.ssps.lightWeights (fun c => .fin (L c.t c.z)))
    (hL : ∀ t z, 0 ≤ L t z) (h : g.Usable SS) {cell : Star → Cell} (hl : g.Locates cell) {m : Mix} (hm : MixtureOfParticles cube g SS cubed m)
    (lw : Bool) (hT : lw = true → ∀ S ∈ SS, 0 < starTotal S g.inRange (starWeight L true cell)) (b : PyStr) :
    ∃ joined rep, fromStars cube SS.flatten = .ok (joined, rep) ∧
      (∀ q ∈ ['t','v','x','y','z'], ValidPair (varOf q) b →
        SameWhere (fun c => ∀ S ∈ SS, 0 < starTotal S (g.Selected cell b c) (starWeight L lw cell)) (compShape (varOf q)) (compIdx q)
          (getMean (baseSelf cube joined) (distStr (varOf q) b) lw) (Mix.getMean m (distStr (varOf q) b) lw) g b ∧
        ∀ j, SameWhere (fun c => ∀ S ∈ SS, 0 < starTotal S (g.Selected cell b c) (starWeight L lw cell)) (compShape (varOf q)) (compIdx q)
          (getCentralMoment (baseSelf cube joined) (distStr (varOf q) b) j lw)
          (Mix.getCentralMoment m (distStr (varOf q) b) j lw) g b) ∧
      ((∀ c, g.Has c → ∀ S ∈ SS, 0 < starTotal S (g.Selected cell b c) (starWeight L lw cell)) →
        (∀ a0 a1, ValidPair [a0, a1] b → ∀ q q', varOf q = [a0] → varOf q' = [a1] →
          SameWhere (fun _ => True) (compShape [a0] ++ compShape [a1]) (compIdx q ++ compIdx q')
            ((obj (baseSelf cube joined)).getCovariance (distStr [a0, a1] b) lw)
            ((Mix.obj m).getCovariance (distStr [a0, a1] b) lw) g b) ∧
        ∀ q ∈ ['t','v','z'], ValidPair [q] b → ∀ j : ℕ, 1 ≤ j →
          Same ((obj (baseSelf cube joined)).getLMoment (distStr [q] b) j lw) ((Mix.obj m).getLMoment (distStr [q] b) j lw) g b) := by
  obtain ⟨rfl, hP, hch⟩ := join_plain hc hg hlight hL h hm
  obtain ⟨st, h1, h2⟩ := C39_component hc hg hlight hL SS.flatten h.mass_nonneg h.covered_pos
  rw [← join_rho h] at h2
  have hS := hP.agrees_moments (lw := lw) h2 (fun e => join_light hg hl h (hT e)) b
  have hT' : ∀ S ∈ SS, 0 < starTotal S g.inRange (starWeight L lw cell) := by
    cases lw with
    | true => exact hT rfl
    | false =>
      intro S hS
      have := (h.2 S hS).2
      unfold Grid.massCovered at this
      simpa [starTotal, starSum, starWeight] using this
  have hok : ∀ c, g.Has c → (∀ S ∈ SS, 0 < starTotal S (g.Selected cell b c) (starWeight L lw cell)) → ∀ i < SS.length,
      g.condWt (wtdP g L (massP g (g.starDensity (SS.getD i []))) lw) b c ≠ 0 := by
    intro c _ hs i hi
    have hi' : SS.getD i [] ∈ SS := by
      rw [List.getD_eq_getElem?_getD, List.getElem?_eq_getElem hi]
      exact List.getElem_mem hi
    exact condWt_stars_ne hg hl (h.2 _ hi').2 (hT' _ hi') (hs _ hi')
  exact ⟨st, _, h1, fun q hq hb => ⟨((hS.1 q hq hb).1).mono hok, fun j => ((hS.1 q hq hb).2 j).mono hok⟩,
    fun hall => hS.2 fun c hc => hok c hc (hall c hc)⟩

/-- And the datacube, once those of the members are evaluated. -/
theorem C77_datacube {interp : ℕ → (ℕ → ℂ) → ℝ → ℂ} {sp : Spectra} {F : ℕ → ℕ → ℕ → ℝ} {nl N v0 : ℕ} (hI : Interp interp)
    (hc : CubeIs cube g) (hg : g.Proper) (hlight : IsArr g ['t','z'] cube.ssps.lightWeights (fun c => .fin (L c.t c.z)))
    (hL : ∀ t z, 0 ≤ L t z) (h : g.Usable SS) (hN : 0 < N) (hF : SpectraAre sp g F nl N) (h0 : ZeroBin g.nv g.v v0)
    (hv : VelocityOk g.nv g.v sp.dv v0) (hnv : 6 ≤ g.nv) {m : Mix}
    (hm : MixtureOfParticles cube g SS
      (fun stored ybar => ∃ Y, ybar = some Y ∧ evaluateYbar interp (baseSelf cube stored) sp "none".toList = .ok Y) m) :
    ∃ joined rep y y', fromStars cube SS.flatten = .ok (joined, rep) ∧ Mix.evaluateYbar m = .ok { m with ybar := some y } ∧
      evaluateYbar interp (baseSelf cube joined) sp "none".toList = .ok y' ∧
      y.shape = [N, g.nx, g.ny] ∧ y'.shape = [N, g.nx, g.ny] ∧
      ∀ k < N, ∀ x < g.nx, ∀ w < g.ny, y.get [k, x, w] = y'.get [k, x, w] := by
  obtain ⟨rfl, hP, hch⟩ := join_plain hc hg hlight hL h hm
  obtain ⟨st, h1, h2⟩ := C39_component hc hg hlight hL SS.flatten h.mass_nonneg h.covered_pos
  rw [← join_rho h] at h2
  obtain ⟨y, y', h3⟩ := hP.agrees_datacube hI h2 hN hF h0 hv hnv fun i hi => by
    obtain ⟨s1, yb, a1, a2, Y, rfl, a3⟩ := hch i hi
    exact ⟨s1, Y, a1, a2, a3⟩
  exact ⟨st, _, y, y', h1, h3⟩

/-! ### The hypotheses are met -/

/-- A second list of particles: one in range, one not. -/
def demoStars' : List Star := [⟨.fin 1, .fin 100, .fin 0, .fin 2, .fin 3, 2⟩, ⟨.fin 1, .fin 1000, .fin 0, .fin 2, .fin 3, 5⟩]

theorem demoStars'_covered : demoGrid.massCovered demoStars' = 2 := by
  have r : ∀ (e : ℕ → ℝ) (n : ℕ) (x : ℝ), InRange e n (.fin x) ↔ e 0 ≤ x ∧ x ≤ e n := by
    intro e n x; simp [InRange]
  simp only [Grid.massCovered, demoStars', List.map_cons, List.map_nil, Grid.inRange, r]
  simp only [demoGrid, cubeGrid, evenEdges]
  norm_num

theorem demo_usable : demoGrid.Usable [demoStars, demoStars'] := by
  refine ⟨by simp, fun S hS => ?_⟩
  simp only [List.mem_cons, List.not_mem_nil, or_false] at hS
  rcases hS with rfl | rfl
  · exact ⟨by simp [demoStars], by rw [demoStars_covered]; norm_num⟩
  · exact ⟨by simp [demoStars'], by rw [demoStars'_covered]; norm_num⟩

/-- Two lists of particles, by mass: the mixture with weights 2/3 and 1/3 has the distribution of positions given ages, and the mean velocity,
of the joined list. -/
example : ∃ cube m cell joined rep, CubeIs cube demoGrid ∧ demoGrid.Locates cell ∧ MixtureOfParticles cube demoGrid [demoStars, demoStars'] (fun _ _ => True) m ∧
    m.weights = [2 / 3, 1 / 3] ∧ fromStars cube (demoStars ++ demoStars') = .ok (joined, rep) ∧
    Same (getP (baseSelf cube joined) (condStr ['x'] ['t']) true false) (Mix.getP m (condStr ['x'] ['t']) true true false) demoGrid (condStr ['x'] ['t']) ∧
    ∃ p p', getMean (baseSelf cube joined) ['v'] false = .ok p ∧ Mix.getMean m ['v'] false = .ok p' ∧ p.get [] = p'.get [] := by
  obtain ⟨cube, -, hc, hs⟩ := demoCube_exists
  obtain ⟨cell, hl⟩ := locates_exists demoGrid_proper
  obtain ⟨_, _, m, -, -, hm1, hm⟩ := C77_accepted hc demoGrid_proper demo_usable fun _ => none
  obtain ⟨st, rep, h1, -, h2⟩ := C77_distributions hc demoGrid_proper (demo_light hs) (fun t z => (demoL_pos t z).le) demo_usable hl hm true false (by simp)
  obtain ⟨st', rep', h1', h3, -⟩ := C77_moments hc demoGrid_proper (demo_light hs) (fun t z => (demoL_pos t z).le) demo_usable hl hm false (by simp) []
  have e := h1.symm.trans h1'
  injection e with e
  injection e with e _
  subst e
  obtain ⟨p, p', a1, a2, -, -, a5⟩ := (h3 'v' (by simp) (Or.inl ⟨rfl, by decide +kernel⟩)).1
  have hw : m.weights = [2 / 3, 1 / 3] := by
    obtain ⟨rfl, -⟩ := mixInit_ok hm1
    simp only [List.map_cons, List.map_nil, massCovered_flatten, List.sum_cons, List.sum_nil, demoStars_covered, demoStars'_covered]
    norm_num
  refine ⟨cube, m, cell, st, rep, hc, hl, hm, hw, by simpa using h1, h2 ['x'] ['t'] (by decide +kernel), p, p', a1, a2,
    a5 ⟨0, 0, 0, 0, 0⟩ (by simp [Grid.Has, demoGrid, cubeGrid]) fun S hS => ?_⟩
  have : demoGrid.Selected cell [] ⟨0, 0, 0, 0, 0⟩ = demoGrid.inRange := by funext s; simp [Grid.Selected, coords]
  rw [this]
  have := (demo_usable.2 S hS).2
  unfold Grid.massCovered at this
  simpa [starTotal, starSum, starWeight] using this

end PKM
