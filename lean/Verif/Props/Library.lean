import Verif.Library
import Verif.Props.Base

/-!
# C70: the SSP library that comes with the package

`LibraryDir dir`: `dir` holds the 636 files of `data/MILES_BASTI_CH_baseFe` (`Verif/Library.lean`), listed in any order.
`agesIn`, `metalsIn`: the ages and metallicities of the library inside the limits.
-/

open scoped Classical

noncomputable section

namespace PKM
open Np Component

variable {dir : MilesDir} {ageLim zLim : Option (ℝ × ℝ)}

/-- What an SSP object made from the library should be: `g` with the attributes `s` read by cubes, for the ages `A`, the metallicities
`Z`, a wavelength range, and rebin factors. `tE`, `zE`, `S` are edges and spectra before merging bins. -/
structure LibraryObject (dir : MilesDir) (A Z : List ℝ) (lmdMin lmdMax : ℝ) (ageRebin zRebin : ℕ) (g : SspGrid) (s : SSPs)
    (tE zE : ℕ → ℝ) (S : ℕ → ℕ → ℕ → ℝ) : Prop where
  /-- The wavelengths are those of the range. -/
  lmd : g.lmd = milesLmd.filter (fun x => x ∈ Set.Icc lmdMin lmdMax)
  pixels : 0 < g.lmd.length
  /-- Each age lies inside its own bin. -/
  ages : ∀ j < A.length, tE j < A.getD j 0 ∧ A.getD j 0 < tE (j + 1)
  /-- Each metallicity lies inside its own bin. -/
  metals : ∀ i < Z.length, zE i < Z.getD i 0 ∧ Z.getD i 0 < zE (i + 1)
  /-- Spectra are those of the files, cut to the range. -/
  spectra : ∀ i < Z.length, ∀ j < A.length, ∃ f ∈ libraryFiles, ∃ spec, f.z = Z.getD i 0 ∧ f.t = A.getD j 0 ∧
    dir.file f.str = some spec ∧ (List.range g.lmd.length).map (fun k => (g.lmd.getD k 0, S k i j)) = cutSpectrum lmdMin lmdMax spec
  /-- Bins are merged by the rebin factors and spectra averaged. -/
  grid : GridIs g g.lmd.length (groups A.length ageRebin) (groups Z.length zRebin) (groupEdge tE A.length ageRebin)
    (groupEdge zE Z.length zRebin) (groupMean Z.length A.length zRebin ageRebin zE tE S)
  ssps : SspsAre s (groups A.length ageRebin) (groups Z.length zRebin) (groupEdge tE A.length ageRebin) (groupEdge zE Z.length zRebin)
  tIncr : ∀ j < groups A.length ageRebin, groupEdge tE A.length ageRebin j < groupEdge tE A.length ageRebin (j + 1)
  zIncr : ∀ i < groups Z.length zRebin, groupEdge zE Z.length zRebin i < groupEdge zE Z.length zRebin (i + 1)
  lightShape : s.lightWeights.shape = [groups A.length ageRebin, groups Z.length zRebin]
  /-- Light weights are sums of spectra. -/
  light : ∀ j < groups A.length ageRebin, ∀ i < groups Z.length zRebin, s.lightWeights.get [j, i] =
    .fin (∑ k ∈ Finset.range g.lmd.length, groupMean Z.length A.length zRebin ageRebin zE tE S k i j)

/-- With limits that keep at least two ages and two metallicities, any wavelength range of the library and any rebin factors, the
constructor succeeds, and the object is what it should be. -/
theorem C70_loads_partial (h : LibraryDir dir) (hnd : ageLim ≠ none ∨ zLim ≠ none) (hnt : 2 ≤ (agesIn ageLim).length)
    (hnz : 2 ≤ (metalsIn zLim).length) {lmdMin lmdMax : ℝ} (h1 : 7081 / 2 ≤ lmdMin) (h2 : lmdMax ≤ 37048 / 5)
    (h3 : lmdMin + 9 / 10 ≤ lmdMax) {ageRebin zRebin : ℕ} (ha : 0 < ageRebin) (hb : 0 < zRebin) :
    ∃ g s tE zE S, milesSSPs dir lmdMin lmdMax ageLim zLim ageRebin zRebin = .ok g ∧ g.toSSPs = .ok s ∧
      LibraryObject dir (agesIn ageLim) (metalsIn zLim) lmdMin lmdMax ageRebin zRebin g s tE zE S := by
  obtain ⟨fs, hn, hp⟩ := h.files
  have hae : agesIn ageLim ≠ [] := fun e => by rw [e] at hnt; simp at hnt
  have hze : metalsIn zLim ≠ [] := fun e => by rw [e] at hnz; simp at hnz
  have eA := library_ages (ageLim := ageLim) hp hze
  have eZ := library_metals (zLim := zLim) hp hae
  have hok : ∀ f ∈ fs, f.Ok := fun f hf => by
    obtain ⟨z, hz, t, ht, rfl⟩ := mem_libraryFiles.1 (hp.subset hf)
    exact libraryName_ok z hz t ht
  have hne : within ageLim zLim fs ≠ [] := by
    intro e
    rw [e] at eA
    exact hae (by rw [← eA]; simp [agesOf])
  have hs : ∀ f ∈ within ageLim zLim fs, ∃ s, dir.file f.str = some s ∧ s.length = 4300 := fun f hf =>
    h.spectra f (hp.subset (List.mem_of_mem_filter hf))
  obtain ⟨m, m', S, e1, e2, e3, e4, e5⟩ := C56_data hn hok hnd hne (library_distinct hp) (library_full hp) hs h1 h2
  rw [eA, eZ] at e3 e5
  have hpos : 0 < m'.lmd.length := by
    obtain ⟨x, hx, hx'⟩ := pixel_exists h1 h2 h3
    refine List.length_pos_of_mem (a := x) ?_
    rw [e4, List.mem_filter]
    exact ⟨hx, by simpa using hx'⟩
  have gt := agesIn_good hnt
  have gz := metalsIn_good hnz
  obtain ⟨g, f1, f2, f3, f4, f5⟩ := sspInit_is e3 hpos hnt hnz library_size gt gz ha hb
  obtain ⟨L, hL, hL1, hL2⟩ := lightWeights_is f2
  have hl : g.lmd = m'.lmd := f5
  have bins : ∀ {n : ℕ} {x : ℕ → ℝ}, 2 ≤ n → GoodValues n x → ∀ i < n, edgeOf n x i < x i ∧ x i < edgeOf n x (i + 1) := by
    intro n x hn' hx i hi
    obtain ⟨n, rfl⟩ : ∃ k, n = k + 2 := ⟨n - 2, by omega⟩
    obtain ⟨b1, b2⟩ := edgeOf_bins hx.1
    refine ⟨?_, b2 i hi⟩
    rcases Nat.eq_zero_or_pos i with rfl | hpi
    · exact (edgeOf_first (hx.1 0 (by omega))).2 hx.2
    · exact b1 i hpi hi
  have lt : ∀ {n : ℕ} {x : ℕ → ℝ}, 2 ≤ n → GoodValues n x → ∀ {r : ℕ}, 0 < r → ∀ j < groups n r,
      groupEdge (edgeOf n x) n r j < groupEdge (edgeOf n x) n r (j + 1) := by
    intro n x hn' hx r hr j hj
    obtain ⟨n, rfl⟩ : ∃ k, n = k + 2 := ⟨n - 2, by omega⟩
    exact groupEdge_lt hr hj (strictMonoOn_edges (edgeOf_lt hx.1 hx.2))
  refine ⟨g, ⟨g.zEdges, g.tEdges, g.zCents, g.tCents, g.deltaT, g.deltaZ, L⟩, _, _, S, ?_, ?_, hl.trans e4, ?_, bins hnt gt, bins hnz gz, ?_, ?_,
    ⟨f2.tEdges, f2.zEdges, f2.tCents, f2.zCents, f2.deltaT, f2.deltaZ⟩, lt hnt gt ha, lt hnz gz hb, hL1, ?_⟩
  · unfold milesSSPs
    rw [e1, Py.ok_bind, e2, Py.ok_bind, f1]
  · simp only [SspGrid.toSSPs, hL, Py.ok_bind]
  · rw [hl]
    exact hpos
  · intro i hi j hj
    obtain ⟨f, hf, spec, a1, a2, a3, a4⟩ := e5 i hi j hj
    rw [hl]
    exact ⟨f, hp.subset (List.mem_of_mem_filter hf), spec, a1, a2, a3, a4⟩
  · rw [hl]
    exact f2
  · rw [hl]
    exact hL2

/-- Limits that keep fewer than two ages or fewer than two metallicities: `IndexError`. -/
theorem C70_too_few (h : LibraryDir dir) (hnd : ageLim ≠ none ∨ zLim ≠ none)
    (hfew : (agesIn ageLim).length < 2 ∨ (metalsIn zLim).length < 2) {lmdMin lmdMax : ℝ} (h1 : 7081 / 2 ≤ lmdMin)
    (h2 : lmdMax ≤ 37048 / 5) (h3 : lmdMin + 9 / 10 ≤ lmdMax) (ageRebin zRebin : ℕ) :
    milesSSPs dir lmdMin lmdMax ageLim zLim ageRebin zRebin = .error .indexError := by
  obtain ⟨fs, hn, hp⟩ := h.files
  have hok : ∀ f ∈ fs, f.Ok := fun f hf => by
    obtain ⟨z, hz, t, ht, rfl⟩ := mem_libraryFiles.1 (hp.subset hf)
    exact libraryName_ok z hz t ht
  by_cases hne : within ageLim zLim fs = []
  · -- no file at all: the first spectrum does not exist
    unfold milesSSPs
    rw [init_steps hn hok one_pos one_pos, C55_identity, hne]
    have hnd' : ¬ (ageLim = none ∧ zLim = none ∧ 1 = 1 ∧ 1 = 1) := fun e => hnd.elim (fun h => h e.1) (fun h => h e.2.1)
    have hc : checkGrid (MilesFiles.of []) = .ok ([], []) := by
      simp [checkGrid, MilesFiles.of, unique]
    have hr : readSpectra dir (MilesFiles.of []) [] [] milesLmd (ageLim = none ∧ zLim = none ∧ 1 = 1 ∧ 1 = 1) = .error .indexError := by
      unfold readSpectra
      rw [if_neg hnd']
      rfl
    rw [hc, Py.ok_bind]
    dsimp only
    rw [hr]
    rfl
  · have hs : ∀ f ∈ within ageLim zLim fs, ∃ s, dir.file f.str = some s ∧ s.length = 4300 := fun f hf =>
      h.spectra f (hp.subset (List.mem_of_mem_filter hf))
    obtain ⟨m, m', S, e1, e2, e3, e4, e5⟩ := C56_data hn hok hnd hne (library_distinct hp) (library_full hp) hs h1 h2
    obtain ⟨f, hf⟩ := List.exists_mem_of_ne_nil _ hne
    have hf' := (mem_within_library hp).1 (List.mem_map_of_mem (f := fun f : FileName => (f.z, f.t)) hf)
    have eA := library_ages (ageLim := ageLim) hp (List.ne_nil_of_mem hf'.1)
    have eZ := library_metals (zLim := zLim) hp (List.ne_nil_of_mem hf'.2)
    rw [eA, eZ] at e3
    have hpos : m'.lmd ≠ [] := by
      obtain ⟨x, hx, hx'⟩ := pixel_exists h1 h2 h3
      refine List.ne_nil_of_mem (a := x) ?_
      rw [e4, List.mem_filter]
      exact ⟨hx, by simpa using hx'⟩
    unfold milesSSPs
    rw [e1, Py.ok_bind, e2, Py.ok_bind]
    unfold SspGrid.init SspGrid.init0
    rw [if_neg (by exact hpos)]
    have hshort : ∀ l : List ℝ, l.length < 2 → parEdgeLims (vecOf l) = .error .indexError := fun l hl =>
      C43_too_few (vecOf_is l) hl
    have ht : m'.data.tUnq.length = (agesIn ageLim).length := e3.t.1
    have hz : m'.data.zUnq.length = (metalsIn zLim).length := e3.z.1
    by_cases h2t : (agesIn ageLim).length < 2
    · rw [hshort _ (by rw [ht]; exact h2t)]
      rfl
    · have h2z : (metalsIn zLim).length < 2 := hfew.resolve_left h2t
      obtain ⟨k, hk⟩ : ∃ k, m'.data.tUnq.length = k + 2 := ⟨m'.data.tUnq.length - 2, by omega⟩
      have hv := vecOf_is m'.data.tUnq
      rw [hk] at hv
      obtain ⟨e, he, -⟩ := parEdgeLims_is hv
      rw [he, Py.ok_bind, hshort _ (by rw [hz]; exact h2z)]
      rfl

/-- Without limits the constructor reads `all_spectra.npy`, a file that the repository does not contain: the default call
`milesSSPs()` raises `AttributeError`. -/
theorem C70_default_fails (h : LibraryDir dir) (hc : dir.cache = none) (lmdMin lmdMax : ℝ) (ageRebin zRebin : ℕ) :
    milesSSPs dir lmdMin lmdMax none none ageRebin zRebin = .error .attributeError := by
  obtain ⟨fs, hn, hp⟩ := h.files
  have hok : ∀ f ∈ fs, f.Ok := fun f hf => by
    obtain ⟨z, hz, t, ht, rfl⟩ := mem_libraryFiles.1 (hp.subset hf)
    exact libraryName_ok z hz t ht
  unfold milesSSPs
  rw [C46_no_cache hn hok (library_distinct hp) (library_full hp) hc]
  rfl

/-- Every spectrum of the library is positive. -/
def Bright (dir : MilesDir) : Prop := ∀ f ∈ libraryFiles, ∀ spec, dir.file f.str = some spec → ∀ x ∈ spec, 0 < x

namespace LibraryObject
variable {A Z : List ℝ} {lmdMin lmdMax : ℝ} {ageRebin zRebin : ℕ} {g : SspGrid} {s : SSPs} {tE zE : ℕ → ℝ} {S : ℕ → ℕ → ℕ → ℝ}

theorem spectra_pos (o : LibraryObject dir A Z lmdMin lmdMax ageRebin zRebin g s tE zE S) (hb : Bright dir) {i j k : ℕ}
    (hi : i < Z.length) (hj : j < A.length) (hk : k < g.lmd.length) : 0 < S k i j := by
  obtain ⟨f, hf, spec, -, -, h3, h4⟩ := o.spectra i hi j hj
  have hm : (g.lmd.getD k 0, S k i j) ∈ cutSpectrum lmdMin lmdMax spec := by
    rw [← h4]
    exact List.mem_map.2 ⟨k, List.mem_range.2 hk, rfl⟩
  exact hb f hf spec h3 _ (List.of_mem_zip (List.mem_of_mem_filter hm)).2

theorem mean_pos (o : LibraryObject dir A Z lmdMin lmdMax ageRebin zRebin g s tE zE S) (hb : Bright dir) (ha : 0 < ageRebin)
    (hz : 0 < zRebin) {i j k : ℕ} (hi : i < groups Z.length zRebin) (hj : j < groups A.length ageRebin) (hk : k < g.lmd.length) :
    0 < groupMean Z.length A.length zRebin ageRebin zE tE S k i j := by
  have hwt : ∀ b < A.length, 0 < width tE b := fun b hb => by
    have := o.ages b hb
    unfold width
    linarith
  have hwz : ∀ a < Z.length, 0 < width zE a := fun a ha => by
    have := o.metals a ha
    unfold width
    linarith
  have mem : ∀ {n r i a : ℕ}, a ∈ group n r i → a < n := fun h => by
    have := (Finset.mem_Ico.1 h).2
    omega
  have ne : ∀ {n r i : ℕ}, 0 < r → i < groups n r → (group n r i).Nonempty := fun {n r i} hr hi => by
    refine Finset.nonempty_Ico.2 (lt_min ?_ (groups_le hr hi))
    exact Nat.mul_lt_mul_of_pos_right (by omega) hr
  unfold groupMean
  refine div_pos ?_ ?_
  · refine Finset.sum_pos (fun a h => Finset.sum_pos (fun b h' => ?_) (ne ha hj)) (ne hz hi)
    exact mul_pos (o.spectra_pos hb (mem h) (mem h') hk) (mul_pos (hwz a (mem h)) (hwt b (mem h')))
  · refine Finset.sum_pos (fun a h => Finset.sum_pos (fun b h' => ?_) (ne ha hj)) (ne hz hi)
    exact mul_pos (hwz a (mem h)) (hwt b (mem h'))

end LibraryObject

/-- From the library to components: a cube of any size can be built from the object, its grid is proper, all light weights are positive,
and the constructor of a component accepts every density array of the right shape. `BaseIs` is what the theorems about
components (C05 to C20) assume. -/
theorem C70_component {A Z : List ℝ} {lmdMin lmdMax : ℝ} {ageRebin zRebin : ℕ} {g : SspGrid} {s : SSPs} {tE zE : ℕ → ℝ}
    {S : ℕ → ℕ → ℕ → ℝ} (o : LibraryObject dir A Z lmdMin lmdMax ageRebin zRebin g s tE zE S) (hA : A ≠ []) (hZ : Z ≠ [])
    (hb : Bright dir) (ha : 0 < ageRebin) (hz : 0 < zRebin) {nx ny nv : ℕ} (hx : 0 < nx) (hy : 0 < ny) (hv : 0 < nv)
    {x1rng x2rng vrng : ℝ × ℝ} (h1 : x1rng.1 < x1rng.2) (h2 : x2rng.1 < x2rng.2) (h3 : vrng.1 < vrng.2) :
    ∃ cube grid L, IFUCube.init s nx ny nv x1rng x2rng vrng = .ok cube ∧
      grid = cubeGrid (groups A.length ageRebin) (groups Z.length zRebin) (groupEdge tE A.length ageRebin)
        (groupEdge zE Z.length zRebin) nx ny nv x1rng x2rng vrng ∧
      (∀ t < groups A.length ageRebin, ∀ z < groups Z.length zRebin, 0 < L t z) ∧
      ∀ (ρ : Cell → ℝ) (arr : Arr Num), (∀ c, 0 ≤ ρ c) → IsArr grid ['t','v','x','z'] arr (fun c => Num.lg (ρ c)) →
        Component.init cube arr = .ok arr ∧ BaseIs cube arr grid ρ L := by
  obtain ⟨cube, c1, c2, c3, -, -⟩ := C03_constructor o.ssps nx ny nv hx hy hv x1rng x2rng vrng
  have hp := C03_proper (groups_pos ha (List.length_pos_of_ne_nil hA)) (groups_pos hz (List.length_pos_of_ne_nil hZ)) o.tIncr o.zIncr
    hx hy hv h1 h2 h3
  have hL : ∀ t < groups A.length ageRebin, ∀ z < groups Z.length zRebin, 0 < ∑ k ∈ Finset.range g.lmd.length,
      groupMean Z.length A.length zRebin ageRebin zE tE S k z t := fun t ht z hz' =>
    Finset.sum_pos (fun k hk => o.mean_pos hb ha hz hz' ht (Finset.mem_range.1 hk)) ⟨0, Finset.mem_range.2 o.pixels⟩
  refine ⟨cube, _, fun t z => if t < groups A.length ageRebin ∧ z < groups Z.length zRebin then
    ∑ k ∈ Finset.range g.lmd.length, groupMean Z.length A.length zRebin ageRebin zE tE S k z t else 0, c1, rfl, ?_, ?_⟩
  · intro t ht z hz'
    beta_reduce
    rw [if_pos ⟨ht, hz'⟩]
    exact hL t ht z hz'
  · intro ρ arr hρ harr
    refine ⟨(C04_constructor_shape c2 hp arr).1 ?_, hp, c2, harr, hρ, ?_, ?_⟩
    · rw [harr.1]
      simp [Grid.shapeOf, Grid.shape1]
    · rw [c3]
      refine ⟨by rw [o.lightShape]; simp [Grid.shapeOf, Grid.shape1, cubeGrid], fun c hc => ?_⟩
      have ht : c.t < groups A.length ageRebin := hc.1
      have hz' : c.z < groups Z.length zRebin := hc.2.2.2.2
      have e := o.light c.t ht c.z hz'
      simp only [if_pos (And.intro ht hz')]
      simpa [coords, coord1] using e
    · intro t z
      beta_reduce
      split_ifs with hif
      · exact (hL t hif.1 z hif.2).le
      · exact le_rfl

/-- Limits that contain the whole library keep all of it. -/
theorem library_all {a b : ℝ} (h0 : a ≤ 3 / 100) (h14 : 14 ≤ b) :
    agesIn (some (a, b)) = libraryAges ∧ metalsIn none = libraryMetals ∧ libraryAges.length = 53 ∧ libraryMetals.length = 12 := by
  refine ⟨?_, ?_, rfl, rfl⟩
  · unfold agesIn
    rw [List.filter_eq_self]
    intro t ht
    obtain ⟨k, hk, rfl⟩ := List.mem_map.1 ht
    have hb : ∀ k ∈ libraryT, 3 ≤ k ∧ k ≤ 1400 := by decide +kernel
    obtain ⟨b1, b2⟩ := hb k hk
    have c1 : (3 : ℝ) ≤ k := by exact_mod_cast b1
    have c2 : (k : ℝ) ≤ 1400 := by exact_mod_cast b2
    simp only [Option.getD_some, Set.mem_Icc, decide_eq_true_eq]
    constructor <;> linarith
  · unfold metalsIn
    rw [List.filter_eq_self]
    intro t ht
    obtain ⟨k, hk, rfl⟩ := List.mem_map.1 ht
    have hb : ∀ k ∈ libraryZ, -227 ≤ k ∧ k ≤ 40 := by decide +kernel
    obtain ⟨b1, b2⟩ := hb k hk
    have c1 : (-227 : ℝ) ≤ k := by exact_mod_cast b1
    have c2 : (k : ℝ) ≤ 40 := by exact_mod_cast b2
    simp only [Option.getD_none, Set.mem_Icc, decide_eq_true_eq]
    constructor <;> linarith

/-- The whole chain, from the files to an answer: a component on a cube on the library has light-weighted distributions that sum to one,
whatever the limits, the wavelengths, the rebin factors, the size of the cube and the (not everywhere zero) density. -/
theorem C70_whole_chain_partial (h : LibraryDir dir) (hbright : Bright dir) (hnd : ageLim ≠ none ∨ zLim ≠ none)
    (hnt : 2 ≤ (agesIn ageLim).length) (hnz : 2 ≤ (metalsIn zLim).length) {lmdMin lmdMax : ℝ} (h1 : 7081 / 2 ≤ lmdMin)
    (h2 : lmdMax ≤ 37048 / 5) (h3 : lmdMin + 9 / 10 ≤ lmdMax) {ageRebin zRebin : ℕ} (ha : 0 < ageRebin) (hb : 0 < zRebin)
    {nx ny nv : ℕ} (hx : 0 < nx) (hy : 0 < ny) (hv : 0 < nv) {x1rng x2rng vrng : ℝ × ℝ} (hx1 : x1rng.1 < x1rng.2)
    (hx2 : x2rng.1 < x2rng.2) (hvr : vrng.1 < vrng.2) :
    ∃ ssps s cube grid, milesSSPs dir lmdMin lmdMax ageLim zLim ageRebin zRebin = .ok ssps ∧ ssps.toSSPs = .ok s ∧
      IFUCube.init s nx ny nv x1rng x2rng vrng = .ok cube ∧ CubeIs cube grid ∧ grid.Proper ∧
      ∀ (ρ : Cell → ℝ) (arr : Arr Num), (∀ c, 0 ≤ ρ c) → (∃ c, grid.Has c ∧ 0 < ρ c) →
        IsArr grid ['t','v','x','z'] arr (fun c => Num.lg (ρ c)) →
        Component.init cube arr = .ok arr ∧ ∀ w ∈ marginals, ∃ p, getP (baseSelf cube arr) w false true = .ok p ∧
          sumAll p = scalar (.fin 1) := by
  obtain ⟨g, s, tE, zE, S, e1, e2, o⟩ := C70_loads_partial h hnd hnt hnz h1 h2 h3 ha hb
  have hA : agesIn ageLim ≠ [] := fun e => by rw [e] at hnt; simp at hnt
  have hZ : metalsIn zLim ≠ [] := fun e => by rw [e] at hnz; simp at hnz
  obtain ⟨cube, grid, L, f1, f2, f3, f4⟩ := C70_component o hA hZ hbright ha hb hx hy hv hx1 hx2 hvr
  obtain ⟨cube', c1, c2, -⟩ := C03_constructor o.ssps nx ny nv hx hy hv x1rng x2rng vrng
  obtain rfl := Except.ok.inj (f1.symm.trans c1)
  have hp := C03_proper (groups_pos ha (List.length_pos_of_ne_nil hA)) (groups_pos hb (List.length_pos_of_ne_nil hZ)) o.tIncr o.zIncr
    hx hy hv hx1 hx2 hvr
  rw [← f2] at c2 hp
  refine ⟨g, s, cube, grid, e1, e2, f1, c2, hp, fun ρ arr hρ hc harr => ?_⟩
  obtain ⟨g1, g2⟩ := f4 ρ arr hρ harr
  refine ⟨g1, fun w hw => C08_light_normalised g2 ?_ w hw⟩
  obtain ⟨c, hc, hc'⟩ := hc
  refine sumCells_pos_of (fun d hd => mul_nonneg (g2.lightNonneg _ _) (mul_nonneg (hρ d) (cellVolume_pos hp hd).le)) hc ?_
  refine mul_pos (f3 c.t ?_ c.z ?_) (mul_pos hc' (cellVolume_pos hp hc))
  · have := hc.1
    rw [f2] at this
    exact this
  · have := hc.2.2.2.2
    rw [f2] at this
    exact this

/-! ### Non-vacuity -/

/-- The library with all fluxes equal to one. -/
def flatLibrary : MilesDir where
  names := libraryFiles.map FileName.str
  file := fun _ => some (List.replicate 4300 1)
  cache := none

theorem flatLibrary_is : LibraryDir flatLibrary where
  names := List.Perm.refl _
  spectra := fun _ _ => ⟨_, rfl, List.length_replicate⟩

theorem flatLibrary_bright : Bright flatLibrary := by
  intro f _ spec hs x hx
  obtain rfl := Option.some.inj hs
  rw [List.eq_of_mem_replicate hx]
  norm_num

/-- The names are those of real files. -/
example : (libraryFiles.map FileName.str).getD 0 [] = "Mch1.30Zm2.27T00.0300_iTp0.00_baseFe.fits".toList ∧
    (libraryFiles.map FileName.str).getD 635 [] = "Mch1.30Zp0.40T14.0000_iTp0.00_baseFe.fits".toList := by decide +kernel

/-- The hypotheses of `C70_loads_partial`, `C70_whole_chain_partial`: all ages and metallicities, wavelengths 4700 to 6500, rebinned by 5 and 2. -/
example : ∃ g s tE zE S, milesSSPs flatLibrary 4700 6500 (some (0, 14)) none 5 2 = .ok g ∧ g.toSSPs = .ok s ∧
    LibraryObject flatLibrary libraryAges libraryMetals 4700 6500 5 2 g s tE zE S := by
  obtain ⟨e1, e2, e3, e4⟩ := library_all (a := 0) (b := 14) (by norm_num) (by norm_num)
  have := C70_loads_partial flatLibrary_is (ageLim := some (0, 14)) (zLim := none) (Or.inl (by simp)) (by rw [e1, e3]; norm_num)
    (by rw [e2, e4]; norm_num) (lmdMin := 4700) (lmdMax := 6500) (by norm_num) (by norm_num) (by norm_num) (ageRebin := 5) (zRebin := 2)
    (by norm_num) (by norm_num)
  rw [e1, e2] at this
  exact this

/-- C70_too_few: a single age. -/
example : milesSSPs flatLibrary 4700 6500 (some (14, 20)) none 1 1 = .error .indexError := by
  refine C70_too_few flatLibrary_is (Or.inl (by simp)) (Or.inl ?_) (by norm_num) (by norm_num) (by norm_num) 1 1
  have hs : agesIn (some (14, 20)) = libraryAges.filter (fun x => x = 14) := by
    refine List.filter_congr fun t ht => ?_
    obtain ⟨k, hk, rfl⟩ := List.mem_map.1 ht
    have hb : ∀ k ∈ libraryT, k ≤ 1400 := by decide +kernel
    have c2 : (k : ℝ) ≤ 1400 := by exact_mod_cast hb k hk
    simp only [Option.getD_some, Set.mem_Icc, decide_eq_decide]
    constructor
    · intro h
      linarith [h.1]
    · intro h
      constructor <;> linarith
  rw [hs]
  have : libraryAges.count 14 ≤ 1 := List.nodup_iff_count_le_one.1 libraryAges_sorted.nodup 14
  rw [List.count_eq_length_filter] at this
  refine lt_of_le_of_lt (le_of_eq ?_) (Nat.lt_succ_of_le this)
  congr 1

/-- C70_default_fails. -/
example : milesSSPs flatLibrary 4700 6500 none none 1 1 = .error .attributeError := C70_default_fails flatLibrary_is rfl _ _ 1 1

end PKM
