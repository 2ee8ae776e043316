import Verif.InitLemmas
import Verif.BaseLemmas

/-!
# C01, C03 (and the shape part of C02): the cube's grid

Statements use only `Verif/Spec.lean` (grids, cells, `coords`, `volOf`, ...) and the API model.
`CubeIs c g` says that cube object `c` has the bins of grid `g`; `C03_constructor` proves that
`IFUCube(...)` establishes it.
-/

open scoped Classical

noncomputable section

namespace PKM
open Np

/-- `IFUCube(ssps, nx1, nx2, nv, x1rng, x2rng, vrng)` with positive bin counts succeeds and its bins
are `nx1`, `nx2`, `nv` equal bins of the three ranges together with the SSP's age and metallicity
bins. -/
theorem C03_constructor {s : SSPs} {nt nz : ℕ} {t z : ℕ → ℝ} (hs : SspsAre s nt nz t z)
    (nx ny nv : ℕ) (hx : 0 < nx) (hy : 0 < ny) (hv : 0 < nv) (x1rng x2rng vrng : ℝ × ℝ) :
    ∃ c, IFUCube.init s nx ny nv x1rng x2rng vrng = .ok c ∧
      CubeIs c (cubeGrid nt nz t z nx ny nv x1rng x2rng vrng) ∧
      c.ssps = s ∧ c.x1rng = x1rng ∧ c.x2rng = x2rng :=
  init_is hs nx ny nv hx hy hv x1rng x2rng vrng

/-- A zero bin count raises `IndexError`, a count below -1 raises `ValueError`: no cube without bins
exists. -/
theorem C03_constructor_rejects (s : SSPs) (nx ny nv : ℤ) (x1rng x2rng vrng : ℝ × ℝ)
    (h : nx < 1 ∨ ny < 1 ∨ nv < 1) :
    ∀ c, IFUCube.init s nx ny nv x1rng x2rng vrng ≠ .ok c := by
  intro c hc
  rw [init_eq] at hc
  rcases h with h | h | h
  · rw [axisBlock_err _ _ (by omega)] at hc
    simp at hc
  · rw [axisBlock_err x2rng (ny + 1) (by omega)] at hc
    cases h1 : axisBlock x1rng (nx + 1) <;> simp [h1] at hc
  · cases h1 : axisBlock x1rng (nx + 1) <;> simp [h1] at hc
    cases h2 : axisBlock x2rng (ny + 1) <;> simp [h2] at hc
    unfold linspace at hc
    split at hc
    · simp at hc
    · next hn =>
      have : nv = -1 ∨ nv = 0 := by omega
      rcases this with rfl | rfl <;> simp [getitem, ixShape, vec] at hc

/-- The grid is proper (positive bins, increasing edges) when the ranges are increasing. -/
theorem C03_proper {nt nz : ℕ} {t z : ℕ → ℝ} (ht : 0 < nt) (hz : 0 < nz)
    (ht' : ∀ i < nt, t i < t (i + 1)) (hz' : ∀ i < nz, z i < z (i + 1))
    {nx ny nv : ℕ} (hx : 0 < nx) (hy : 0 < ny) (hv : 0 < nv) {x1rng x2rng vrng : ℝ × ℝ}
    (h1 : x1rng.1 < x1rng.2) (h2 : x2rng.1 < x2rng.2) (h3 : vrng.1 < vrng.2) :
    (cubeGrid nt nz t z nx ny nv x1rng x2rng vrng).Proper := by
  have key : ∀ (r : ℝ × ℝ) (n : ℕ), 0 < n → r.1 < r.2 → ∀ i < n,
      evenEdges r n i < evenEdges r n (i + 1) := by
    intro r n hn hr i _
    have := width_even r n i
    have hp : 0 < (r.2 - r.1) / n := div_pos (by linarith) (by exact_mod_cast hn)
    unfold width at this
    linarith
  exact ⟨ht, hv, hx, hy, hz, ht', key _ _ hv h3, key _ _ hx h1, key _ _ hy h2, hz'⟩

/-- The five variables of the API with their numbers of bins and edges. -/
def Grid.variable (g : Grid) (var : PyStr) : Option (ℕ × (ℕ → ℝ)) :=
  if var = ['t'] then some (g.nt, g.t) else if var = ['v'] then some (g.nv, g.v)
  else if var = ['z'] then some (g.nz, g.z) else if var = ['x','1'] then some (g.nx, g.x)
  else if var = ['x','2'] then some (g.ny, g.y) else none

/-- For each of the five variables: `get_variable_edges` returns the `n+1` bin edges,
`get_variable_values` the `n` midpoints, `get_variable_size` is `n`. -/
theorem C03_values_edges {c : IFUCube} {g : Grid} (h : CubeIs c g) (hg : g.Proper) (var : PyStr)
    (n : ℕ) (e : ℕ → ℝ) (hv : g.variable var = some (n, e)) :
    (∃ a, c.getVariableEdges var = .ok a ∧ a.shape = [n + 1] ∧
      ∀ i, i < n + 1 → a.get [i] = .fin (e i)) ∧
    (∃ a, c.getVariableValues var = .ok a ∧ a.shape = [n] ∧
      ∀ i, i < n → a.get [i] = .fin ((e i + e (i + 1)) / 2)) ∧
    c.getVariableSize var = .ok n := by
  have sz : ∀ {a : Arr Num} {n f}, Is1 a n f → IFUCube.pyLen a = .ok n := by
    intro a n f ha; simp [IFUCube.pyLen, ha.shape]
  have spat : ∀ {a : Arr Num} {d : Num} {n : ℕ} {e : ℕ → ℝ}, 0 < n → Is1 a n (centre e) →
      (∀ i < n, d = .fin (width e i)) → ∃ r, IFUCube.spatialEdges a d = .ok r ∧ Is1 r (n + 1) e := by
    intro a d n e hn ha hd
    obtain ⟨m, rfl⟩ : ∃ m, n = m + 1 := ⟨n - 1, by omega⟩
    have hw : ∀ i < m + 1, width e i = width e 0 := by
      intro i hi
      have := hd i hi; rw [hd 0 (by omega)] at this
      exact (Num.fin_injective this).symm
    have hd2 : d / .fin 2 = .fin (width e 0 / 2) := by
      rw [hd 0 (by omega), Num.fin_div _ _ (by norm_num)]
    obtain ⟨lo, elo, hlo⟩ := ha.bop0 (· - ·) (Is0.scalar (width e 0 / 2)) (m := e) (by
      intro i hi
      rw [Num.fin_sub, ← hw i hi]; congr 1; simp [centre, width]; ring)
    obtain ⟨l, el, hl⟩ := ha.last
    obtain ⟨hi, ehi, hhi⟩ := hl.bop (· + ·) (Is0.scalar (width e 0 / 2)) (z := e (m + 1)) (by
      rw [Num.fin_add, ← hw m (by omega)]; congr 1; simp [centre, width]; ring)
    refine ⟨⟨[m + 1 + 1], fun i => if i.headD 0 < m + 1 then lo.get i else
      (([hi] : List (Arr Num)).getD (i.headD 0 - (m + 1)) hi).get i.tail⟩, ?_, rfl, ?_⟩
    · simp [IFUCube.spatialEdges, hd2, sub, elo, el, add, ehi, stack, concat0, hlo.shape, hhi.shape]
    · intro i hi'
      by_cases hlt : i < m + 1
      · exact (if_pos hlt).trans (hlo.get i hlt)
      · refine (if_neg hlt).trans ?_
        have : i = m + 1 := by omega
        subst this
        simpa using hhi.get
  unfold Grid.variable at hv
  split_ifs at hv with h1 h2 h3 h4 h5 <;>
    (simp only [Option.some.injEq, Prod.mk.injEq] at hv; obtain ⟨rfl, rfl⟩ := hv; subst var)
  · exact ⟨⟨_, by simp [IFUCube.getVariableEdges], h.tEdges.shape, h.tEdges.get⟩,
      ⟨_, by simp [IFUCube.getVariableValues], h.tCents.shape, h.tCents.get⟩,
      by simp [IFUCube.getVariableSize, IFUCube.getVariableValues, sz h.tCents]⟩
  · obtain ⟨d, ed, hd⟩ := mid_edges h.vEdg
    have e1 : c.getVariableValues ['v'] = .ok d := by
      rw [← ed]; simp [IFUCube.getVariableValues]
    exact ⟨⟨_, by simp [IFUCube.getVariableEdges], h.vEdg.shape, h.vEdg.get⟩,
      ⟨d, e1, hd.shape, hd.get⟩, by simp [IFUCube.getVariableSize, e1, sz hd]⟩
  · exact ⟨⟨_, by simp [IFUCube.getVariableEdges], h.zEdges.shape, h.zEdges.get⟩,
      ⟨_, by simp [IFUCube.getVariableValues], h.zCents.shape, h.zCents.get⟩,
      by simp [IFUCube.getVariableSize, IFUCube.getVariableValues, sz h.zCents]⟩
  · obtain ⟨r, er, hr⟩ := spat hg.nx h.x h.dx
    exact ⟨⟨r, by simpa [IFUCube.getVariableEdges] using er, hr.shape, hr.get⟩,
      ⟨_, by simp [IFUCube.getVariableValues], h.x.shape, h.x.get⟩,
      by simp [IFUCube.getVariableSize, IFUCube.getVariableValues, sz h.x]⟩
  · obtain ⟨r, er, hr⟩ := spat hg.ny h.y h.dy
    exact ⟨⟨r, by simpa [IFUCube.getVariableEdges] using er, hr.shape, hr.get⟩,
      ⟨_, by simp [IFUCube.getVariableValues], h.y.shape, h.y.get⟩,
      by simp [IFUCube.getVariableSize, IFUCube.getVariableValues, sz h.y]⟩

/-- `get_variable_extent` returns the first and last edge; for x1, x2 this is the range given to the
constructor. -/
theorem C03_extent {s : SSPs} {nt nz : ℕ} {t z : ℕ → ℝ} (hs : SspsAre s nt nz t z)
    (nx ny nv : ℕ) (hx : 0 < nx) (hy : 0 < ny) (hv : 0 < nv) (x1rng x2rng vrng : ℝ × ℝ)
    {c : IFUCube} (hc : IFUCube.init s nx ny nv x1rng x2rng vrng = .ok c)
    (var : PyStr) (n : ℕ) (e : ℕ → ℝ)
    (hvar : (cubeGrid nt nz t z nx ny nv x1rng x2rng vrng).variable var = some (n, e)) :
    c.getVariableExtent var = .ok (.fin (e 0), .fin (e n)) ∧
    (var = ['x','1'] → (e 0, e n) = x1rng) ∧ (var = ['x','2'] → (e 0, e n) = x2rng) ∧
    (var = ['v'] → (e 0, e n) = vrng) := by
  obtain ⟨c', hc', hci, h1, h2, h3⟩ := init_is hs nx ny nv hx hy hv x1rng x2rng vrng
  rw [hc] at hc'; cases hc'
  have ev : ∀ (r : ℝ × ℝ) (n : ℕ), 0 < n → (evenEdges r n 0, evenEdges r n n) = r := by
    intro r n hn
    have : (n : ℝ) ≠ 0 := by exact_mod_cast hn.ne'
    ext <;> simp [evenEdges]
    field_simp
    ring
  unfold Grid.variable at hvar
  split_ifs at hvar with g1 g2 g3 g4 g5 <;>
    (simp only [Option.some.injEq, Prod.mk.injEq] at hvar; obtain ⟨rfl, rfl⟩ := hvar; subst var)
  · obtain ⟨a, ea, ha⟩ := hci.tEdges.at (k := 0) (by omega)
    obtain ⟨b, eb, hb⟩ := hci.tEdges.last
    simp only [Nat.cast_zero] at ea
    simp [IFUCube.getVariableExtent, ea, eb, ha.get, hb.get]
  · obtain ⟨a, ea, ha⟩ := hci.vEdg.at (k := 0) (by omega)
    obtain ⟨b, eb, hb⟩ := hci.vEdg.last
    simp only [Nat.cast_zero] at ea
    simp [IFUCube.getVariableExtent, ea, eb, ha.get, hb.get]
    exact ev vrng nv hv
  · obtain ⟨a, ea, ha⟩ := hci.zEdges.at (k := 0) (by omega)
    obtain ⟨b, eb, hb⟩ := hci.zEdges.last
    simp only [Nat.cast_zero] at ea
    simp [IFUCube.getVariableExtent, ea, eb, ha.get, hb.get]
  · have := ev x1rng nx hx
    simp only [Prod.ext_iff] at this
    simp [IFUCube.getVariableExtent, h2]
    simp [cubeGrid, this]
  · have := ev x2rng ny hy
    simp only [Prod.ext_iff] at this
    simp [IFUCube.getVariableExtent, h3]
    simp [cubeGrid, this]

/-- Any other variable name raises `ValueError` in all four functions. -/
theorem C03_unknown_variable (c : IFUCube) (g : Grid) (var : PyStr) (hv : g.variable var = none) :
    c.getVariableValues var = .error .valueError ∧ c.getVariableEdges var = .error .valueError ∧
    c.getVariableSize var = .error .valueError ∧ c.getVariableExtent var = .error .valueError := by
  unfold Grid.variable at hv
  split_ifs at hv
  simp [IFUCube.getVariableValues, IFUCube.getVariableEdges, IFUCube.getVariableSize,
    IFUCube.getVariableExtent, *]

/-! ### C01 -/

/-- Volume element of a marginal string: multiplying any array of the distribution's shape by it
succeeds, keeps the shape, and multiplies the entry of every cell by the product of the bin widths
of the variables of `w`. -/
theorem C01_volume_marginal {c : IFUCube} {g : Grid} (h : CubeIs c g) (hg : g.Proper)
    (w : PyStr) (hw : w ∈ marginals) :
    ∃ d, c.constructVolumeElement w = .ok d ∧
    ∀ p : Arr Num, p.shape = g.shapeOf w → ∃ r, mul p d = .ok r ∧ r.shape = g.shapeOf w ∧
      ∀ cell, g.Has cell → r.get (coords w cell) = p.get (coords w cell) * .fin (g.volOf w cell) := by
  obtain ⟨d, hd, -, hb⟩ := volumeElement_plain h hg.nx hg.ny (marginals_chars w hw)
  refine ⟨d, hd, fun p hp => ?_⟩
  classical
  let f : Cell → Num := fun cell => p.get (coords w cell)
  obtain ⟨r, hr, hr1, hr2⟩ := IsArr.bop (· * ·) (f := f) (⟨hp, fun _ _ => rfl⟩ : IsArr g w p f) hb
  exact ⟨r, hr, hr1, hr2⟩

/-- Volume element of a conditional string `a_b`: product of the bin widths of the variables of `a`
only. -/
theorem C01_volume_conditional {c : IFUCube} {g : Grid} (h : CubeIs c g) (hg : g.Proper)
    (a b : PyStr) (hab : (a, b) ∈ conditionals) :
    ∃ d, c.constructVolumeElement (condStr a b) = .ok d ∧
    ∀ p : Arr Num, p.shape = g.shapeOf a ++ g.shapeOf b → ∃ r, mul p d = .ok r ∧
      r.shape = g.shapeOf a ++ g.shapeOf b ∧
      ∀ cell, g.Has cell → r.get (coords a cell ++ coords b cell) =
        p.get (coords a cell ++ coords b cell) * .fin (g.volOf a cell) := by
  obtain ⟨-, -, -, h4, h5, -⟩ := conditionals_letters _ hab
  obtain ⟨d, hd, hb⟩ := volumeElement_cond h hg.nx hg.ny (a := a) (b := b) h4 h5
  refine ⟨d, hd, fun p hp => ?_⟩
  let f : Cell → Num := fun cell => p.get (coords (condStr a b) cell)
  obtain ⟨r, hr, hr1, hr2⟩ := IsArr.bop (· * ·) (f := f)
    (⟨by rw [hp, shapeOf_condStr], fun _ _ => rfl⟩ : IsArr g (condStr a b) p f) hb
  refine ⟨r, hr, by rw [hr1, shapeOf_condStr], fun cell hc => ?_⟩
  have := hr2 cell hc
  simpa only [f, coords_condStr] using this

/-! ### C02, shape part -/

/-- `get_distribution_shape` lists the bin counts of the variables in the order written, for every
string over `t v x z _`. -/
theorem C02_distribution_shape {c : IFUCube} {g : Grid} (h : CubeIs c g) (hg : g.Proper)
    (w : PyStr) (hw : ∀ ch ∈ w, ch ∈ ['t','v','x','z','_']) :
    c.getDistributionShape w = .ok (g.shapeOf w) := by
  have sz : ∀ var n e, g.variable var = some (n, e) → c.getVariableSize var = .ok n :=
    fun var n e hv => (C03_values_edges h hg var n e hv).2.2
  unfold IFUCube.getDistributionShape
  induction w with
  | nil => rfl
  | cons a w ih =>
    have ih' := ih (fun ch hc => hw ch (by simp [hc]))
    have ha := hw a (by simp)
    have ht := sz ['t'] g.nt g.t (by simp [Grid.variable])
    have hv := sz ['v'] g.nv g.v (by simp [Grid.variable])
    have hz := sz ['z'] g.nz g.z (by simp [Grid.variable])
    have hx := sz ['x','1'] g.nx g.x (by simp [Grid.variable])
    have hy := sz ['x','2'] g.ny g.y (by simp [Grid.variable])
    fin_cases ha <;>
      simp_all [PyStr.dropUnderscore, IFUCube.shapeLoop, Grid.shapeOf, Grid.shape1]

/-- A character that is not a variable raises `ValueError`. -/
theorem C02_distribution_shape_rejects {c : IFUCube} {g : Grid} (h : CubeIs c g) (hg : g.Proper)
    (w : PyStr) (hw : ∃ ch ∈ w, ch ∉ ['t','v','x','z','_']) :
    c.getDistributionShape w = .error .valueError := by
  have sz : ∀ var n e, g.variable var = some (n, e) → c.getVariableSize var = .ok n :=
    fun var n e hv => (C03_values_edges h hg var n e hv).2.2
  have ht := sz ['t'] g.nt g.t (by simp [Grid.variable])
  have hv := sz ['v'] g.nv g.v (by simp [Grid.variable])
  have hz := sz ['z'] g.nz g.z (by simp [Grid.variable])
  have hx := sz ['x','1'] g.nx g.x (by simp [Grid.variable])
  have hy := sz ['x','2'] g.ny g.y (by simp [Grid.variable])
  unfold IFUCube.getDistributionShape
  induction w with
  | nil => simp at hw
  | cons a w ih =>
    by_cases ha : a ∈ ['t','v','x','z','_']
    · have hw' : ∃ ch ∈ w, ch ∉ ['t','v','x','z','_'] := by
        obtain ⟨ch, h1, h2⟩ := hw
        rcases List.mem_cons.1 h1 with rfl | h1
        · exact absurd ha h2
        · exact ⟨ch, h1, h2⟩
      have ih' := ih hw'
      fin_cases ha <;> simp_all [PyStr.dropUnderscore, IFUCube.shapeLoop]
    · have hu := (C03_unknown_variable c g [a] (by
        unfold Grid.variable; simp at ha; simp [ha])).2.2.1
      simp at ha
      simp [PyStr.dropUnderscore, ha, IFUCube.shapeLoop, hu]

/-! ### Non-vacuity: a concrete cube -/

/-- SSP attributes with 2 unequal age bins and 3 unequal metallicity bins. -/
def demoSSPs : SSPs where
  zEdges := vec 4 (fun i => .fin (i ^ 2))
  tEdges := vec 3 (fun i => .fin (i ^ 2))
  zCents := vec 3 (fun i => .fin (centre (fun i => (i : ℝ) ^ 2) i))
  tCents := vec 2 (fun i => .fin (centre (fun i => (i : ℝ) ^ 2) i))
  deltaT := vec 2 (fun i => .fin (width (fun i => (i : ℝ) ^ 2) i))
  deltaZ := vec 3 (fun i => .fin (width (fun i => (i : ℝ) ^ 2) i))
  lightWeights := ⟨[2, 3], fun i => .fin (i.headD 0 + 1)⟩

theorem demoSSPs_are : SspsAre demoSSPs 2 3 (fun i => (i : ℝ) ^ 2) (fun i => (i : ℝ) ^ 2) :=
  ⟨⟨rfl, fun _ _ => rfl⟩, ⟨rfl, fun _ _ => rfl⟩, ⟨rfl, fun _ _ => rfl⟩, ⟨rfl, fun _ _ => rfl⟩,
   ⟨rfl, fun _ _ => rfl⟩, ⟨rfl, fun _ _ => rfl⟩⟩

/-- A 2 × 4 × 5 × 6 × 3 grid. -/
def demoGrid : Grid := cubeGrid 2 3 (fun i => (i : ℝ) ^ 2) (fun i => (i : ℝ) ^ 2) 5 6 4
  (-1, 1) (0, 3) (-100, 300)

theorem demoGrid_proper : demoGrid.Proper := by
  have key : ∀ i : ℕ, ((i : ℝ)) ^ 2 < ((i + 1 : ℕ) : ℝ) ^ 2 := by
    intro i; push_cast; nlinarith [(Nat.cast_nonneg i : (0 : ℝ) ≤ i)]
  exact C03_proper (by norm_num) (by norm_num) (fun i _ => key i) (fun i _ => key i)
    (by norm_num) (by norm_num) (by norm_num) (by norm_num) (by norm_num) (by norm_num)

/-- The hypotheses of the theorems above are met by a cube made by the constructor. -/
theorem demoCube_exists : ∃ c, IFUCube.init demoSSPs 5 6 4 (-1, 1) (0, 3) (-100, 300) = .ok c ∧
    CubeIs c demoGrid ∧ c.ssps = demoSSPs := by
  obtain ⟨c, h1, h2, h3, -⟩ := C03_constructor demoSSPs_are 5 6 4 (by norm_num) (by norm_num)
    (by norm_num) (-1, 1) (0, 3) (-100, 300)
  exact ⟨c, h1, h2, h3⟩

example : ∃ c, CubeIs c demoGrid ∧ demoGrid.Proper ∧ (['v','x'], ['t']) ∈ conditionals ∧
    c.getDistributionShape (condStr ['v','x'] ['t']) = .ok [4, 5, 6, 2] := by
  obtain ⟨c, -, h, -⟩ := demoCube_exists
  refine ⟨c, h, demoGrid_proper, by decide, ?_⟩
  exact C02_distribution_shape h demoGrid_proper _ (by decide)

end PKM
