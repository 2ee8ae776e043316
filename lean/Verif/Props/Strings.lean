import Verif.Props.Base

/-!
# C12: which distribution strings are accepted, and non-vacuity of the base theorems
-/

open scoped Classical

noncomputable section

namespace PKM
open Np Component

variable {cube : IFUCube} {stored : Arr Num} {g : Grid} {ρ : Cell → ℝ} {L : ℕ → ℕ → ℝ}

theorem PyStr.split_noSep {c : Char} : ∀ {w : PyStr}, c ∉ w → PyStr.split c w = [w]
  | [], _ => rfl
  | a :: w, h => by
    have h1 : a ≠ c := fun e => h (by simp [e])
    have h2 := PyStr.split_noSep (c := c) (w := w) (fun e => h (by simp [e]))
    simp [PyStr.split, h1, h2]

theorem PyStr.split_length (c : Char) : ∀ (w : PyStr), (PyStr.split c w).length = w.count c + 1
  | [] => rfl
  | a :: w => by
    have ih := PyStr.split_length c w
    by_cases h : a = c
    · simp [PyStr.split, h, ih]
    · simp only [PyStr.split, h, if_false]
      split
      · next e => simp [e] at ih
      · next hd tl e => simp [e, List.count_cons, h] at ih ⊢; omega

theorem sorted_perm (w : PyStr) : (PyStr.sorted w).Perm w := List.perm_insertionSort _ _

theorem sorted_congr {u w : PyStr} (h : u.Perm w) : PyStr.sorted u = PyStr.sorted w := by
  have hp : (PyStr.sorted u).Perm (PyStr.sorted w) := (sorted_perm u).trans (h.trans (sorted_perm w).symm)
  exact hp.eq_of_pairwise (fun a b _ _ h1 h2 => le_antisymm h1 h2)
    (List.pairwise_insertionSort (· ≤ ·) u) (List.pairwise_insertionSort (· ≤ ·) w)

theorem append_diff_self (m d : PyStr) : (m ++ d).diff m = d := by
  induction m with
  | nil => simp
  | cons a m ih => simp [List.diff_cons, ih]

theorem marginals_diff : ∀ u ∈ marginals, ∀ m ∈ marginals, (∀ ch ∈ m, ch ∈ u) →
    u.diff m = [] ∨ (PyStr.sorted (u.diff m), m) ∈ conditionals := by decide +kernel

/-- Accepted conditional strings: sorting the dependents gives one of the 50 strings (or nothing is
left of the underscore). -/
theorem accepted_sorted {d m : PyStr} (hm : m ∈ marginals) (hj : PyStr.sorted (d ++ m) ∈ marginals) :
    d = [] ∨ (PyStr.sorted d, m) ∈ conditionals := by
  have hp := sorted_perm (d ++ m)
  have h1 : ((PyStr.sorted (d ++ m)).diff m).Perm d := by
    have := (hp.trans List.perm_append_comm).diff_right m
    rwa [append_diff_self] at this
  rcases marginals_diff _ hj m hm (fun ch hch => hp.mem_iff.2 (by simp [hch])) with h | h
  · left; rw [h] at h1; exact List.perm_nil.1 h1.symm
  · right; rwa [sorted_congr h1] at h

theorem emptyOrder : ∀ m ∈ marginals,
    moveOrder (PyStr.replaceX m).length (oldPos (PyStr.replaceX m) (PyStr.replaceX m))
      (newPos (PyStr.replaceX m).length) = .ok ((PyStr.replaceX m).map (PyStr.replaceX m).idxOf) ∧
    (PyStr.replaceX m).Nodup ∧ PyStr.sorted m = m := by decide +kernel

/-- Marginal tables, computed. -/
theorem C12_marginal_exists (h : BaseIs cube stored g ρ L) (lw : Bool) {w : PyStr} (hw : w ∈ marginals) :
    ∃ f, Gives (getLogMarginal (baseSelf cube stored) w false lw) g w f := by
  have hT0 : 0 ≤ totalLight g L (massP g ρ) := sumCells_nonneg fun d hd =>
    mul_nonneg (h.lightNonneg _ _) (massP_nonneg h.proper h.nonneg hd)
  by_cases hl : lw = true ∧ totalLight g L (massP g ρ) = 0
  · obtain ⟨rfl, h0⟩ := hl
    exact ⟨_, h.marginal_dark false h0 hw⟩
  · exact ⟨_, h.marginal false lw (fun e => lt_of_le_of_ne hT0 (fun h0 => hl ⟨e, h0.symm⟩)) hw⟩

/-- The string `_m` (nothing left of the underscore) is accepted. -/
theorem empty_dependents (h : BaseIs cube stored g ρ L) (lw : Bool) {m : PyStr} (hm : m ∈ marginals)
    {f : Cell → Num} (hf : Gives (getLogMarginal (baseSelf cube stored) m false lw) g m f) :
    Gives (condFromJoint (baseSelf cube stored) (condStr [] m) [] m false lw) g m
      (fun c => f c - f c) := by
  obtain ⟨h1, h2, h3⟩ := emptyOrder m hm
  obtain ⟨A, hA, hA'⟩ := hf
  have hL := (isArr_iff (marginals_chars m hm)).1 hA'
  have hlen : A.shape.length = (PyStr.replaceX m).length := by rw [hL.1]; simp
  have hT : IsArr g m (transpose ((PyStr.replaceX m).map (PyStr.replaceX m).idxOf) A) f := by
    refine (isArr_iff (marginals_chars m hm)).2 ⟨?_, fun c hc => ?_⟩
    · exact (transpose_letters _ _ h2 (fun _ h => h) (fun _ h => h) A (sizeL g) hL.1 (fun _ => 0)).1
    · rw [(transpose_letters _ _ h2 (fun _ h => h) (fun _ h => h) A (sizeL g) hL.1 (coordL c)).2]
      exact hL.2 c hc
  obtain ⟨C, hC, hC'⟩ := hT.bop (· - ·) hA'.barr
  refine ⟨C, ?_, hC'⟩
  have hmv : moveaxis (oldPos (PyStr.replaceX m) (PyStr.replaceX m))
      (newPos (PyStr.replaceX m).length) A =
      .ok (transpose ((PyStr.replaceX m).map (PyStr.replaceX m).idxOf) A) := by
    simp [moveaxis, hlen, h1]
  simp [condFromJoint, h3, hA, hmv, sub, hC]

/-- Without density, the conditional only depends on the set of dependent variables. -/
theorem condFromJoint_perm (s : Self) (w w' d d' m : PyStr) (hd : d.Perm d') (lw : Bool) :
    condFromJoint s w d m false lw = condFromJoint s w' d' m false lw := by
  unfold condFromJoint
  rw [sorted_congr (hd.append_right m)]
  simp

/-- The density is the probability divided by the volume element. -/
theorem condFromJoint_density (s : Self) (w d m : PyStr) (lw : Bool) :
    condFromJoint s w d m true lw = (do
      let C ← condFromJoint s w d m false lw
      let v ← s.cube.constructVolumeElement w
      sub C (Np.map Num.log v)) := by
  simp [condFromJoint, bind_assoc]

/-- `get_p(d_m)` of a component without hard-coded conditionals. -/
theorem getP_one_underscore (cube : IFUCube) (stored : Arr Num) (d m : PyStr) (hd : '_' ∉ d)
    (hm : '_' ∉ m) (density lw : Bool) :
    getP (baseSelf cube stored) (condStr d m) density lw =
      (condFromJoint (baseSelf cube stored) (condStr d m) d m density lw).map (Np.map Num.exp) := by
  have hn : (baseSelf cube stored).logP (condStr d m) = none :=
    baseLogP_none _ _ (condStr_not_marginal d m)
  simp only [getP, getLogP, getLogConditional, hasUnderscore_condStr, if_true, split_condStr hd hm,
    getLogMarginal, hn]
  cases condFromJoint (baseSelf cube stored) (condStr d m) d m density lw <;> rfl

/-- A string without underscore is accepted iff it is one of the 15 marginals; otherwise it raises
`AttributeError`. -/
theorem C12_no_underscore (h : BaseIs cube stored g ρ L) (lw : Bool) (w : PyStr) (hw : '_' ∉ w) :
    (w ∈ marginals → ∃ p, getP (baseSelf cube stored) w false lw = .ok p) ∧
    (w ∉ marginals → ∀ density, getP (baseSelf cube stored) w density lw = .error .attributeError) := by
  constructor
  · intro hm
    obtain ⟨f, A, hA, -⟩ := C12_marginal_exists h lw hm
    exact ⟨Np.map Num.exp A, by simp [getP, getLogP, hw, hA]⟩
  · intro hm density
    have hn : (baseSelf cube stored).logP w = none := baseLogP_none _ _ hm
    simp [getP, getLogP, hw, getLogMarginal, hn]

/-- A string with one underscore, `d_m`: accepted iff `m` is a marginal string and the letters of
`d` and `m` together, sorted, form a marginal string; otherwise `AttributeError`. -/
theorem C12_one_underscore (h : BaseIs cube stored g ρ L) (lw : Bool) (d m : PyStr)
    (hd : '_' ∉ d) (hm : '_' ∉ m) :
    (m ∈ marginals ∧ PyStr.sorted (d ++ m) ∈ marginals →
      ∃ p, getP (baseSelf cube stored) (condStr d m) false lw = .ok p) ∧
    (¬ (m ∈ marginals ∧ PyStr.sorted (d ++ m) ∈ marginals) → ∀ density,
      getP (baseSelf cube stored) (condStr d m) density lw = .error .attributeError) := by
  constructor
  · rintro ⟨h1, h2⟩
    rw [getP_one_underscore cube stored d m hd hm]
    rcases accepted_sorted h1 h2 with rfl | hc
    · obtain ⟨f, hf⟩ := C12_marginal_exists h lw h1
      obtain ⟨C, hC, -⟩ := empty_dependents h lw h1 hf
      exact ⟨_, by rw [hC]; rfl⟩
    · rw [condFromJoint_perm _ _ (condStr (PyStr.sorted d) m) d (PyStr.sorted d) m (sorted_perm d).symm]
      obtain ⟨-, -, -, -, -, -, -, -, h9, h10⟩ := conditionals_letters _ hc
      obtain ⟨fJ, hJ⟩ := C12_marginal_exists h lw h10
      obtain ⟨fM, hM⟩ := C12_marginal_exists h lw h9
      obtain ⟨C, hC, -⟩ := condFromJoint_gen (s := baseSelf cube stored) h.proper h.cubeIs false _ hc hJ hM
      exact ⟨_, by rw [hC]; rfl⟩
  · intro hn density
    rw [getP_one_underscore cube stored d m hd hm]
    by_cases hj : PyStr.sorted (d ++ m) ∈ marginals
    · have hm' : m ∉ marginals := fun e => hn ⟨e, hj⟩
      have e : (baseSelf cube stored).logP m = none := baseLogP_none _ _ hm'
      obtain ⟨f, A, hA, -⟩ := C12_marginal_exists h lw hj
      simp [condFromJoint, hA, getLogMarginal, e, Except.map]
      simp only [getLogMarginal] at hA
      rw [hA]; rfl
    · have e : (baseSelf cube stored).logP (PyStr.sorted (d ++ m)) = none := baseLogP_none _ _ hj
      simp [condFromJoint, getLogMarginal, e, Except.map]

/-- More than one underscore raises `ValueError`. -/
theorem C12_many_underscores (cube : IFUCube) (stored : Arr Num) (w : PyStr) (hw : 2 ≤ w.count '_')
    (density lw : Bool) : getP (baseSelf cube stored) w density lw = .error .valueError := by
  have hmem : '_' ∈ w := List.count_pos_iff.1 (by omega)
  have hl := PyStr.split_length '_' w
  simp only [getP, getLogP, hmem, if_true, getLogConditional]
  split
  · next e => simp [e] at hl; omega
  · rfl

/-- Unsorted dependents are not rejected: the result is the array of the sorted string. -/
theorem C12_unsorted_accepted (cube : IFUCube) (stored : Arr Num) (d m : PyStr) (hd : '_' ∉ d)
    (hm : '_' ∉ m) (lw : Bool) :
    getP (baseSelf cube stored) (condStr d m) false lw =
      getP (baseSelf cube stored) (condStr (PyStr.sorted d) m) false lw := by
  rw [getP_one_underscore cube stored d m hd hm, getP_one_underscore cube stored (PyStr.sorted d) m
    (fun e => hd ((sorted_perm d).mem_iff.1 e)) hm,
    condFromJoint_perm _ _ (condStr (PyStr.sorted d) m) d (PyStr.sorted d) m (sorted_perm d).symm]

/-- Every string falls in exactly one of the three cases. -/
theorem C12_cases (w : PyStr) : '_' ∉ w ∨ (∃ d m, w = condStr d m ∧ '_' ∉ d ∧ '_' ∉ m) ∨
    2 ≤ w.count '_' := by
  by_cases h0 : '_' ∈ w
  · right
    obtain ⟨d, m, e, hd⟩ := List.eq_append_cons_of_mem h0
    by_cases hm : '_' ∈ m
    · right
      have := List.count_pos_iff.2 hm
      rw [e]; simp [List.count_append]; omega
    · left; exact ⟨d, m, e, hd, hm⟩
  · left; exact h0

/-- **C12**: the accepted strings, for queries of probabilities (`density=False`). -/
theorem C12_accepted (h : BaseIs cube stored g ρ L) (lw : Bool) (w : PyStr) :
    (∃ p, getP (baseSelf cube stored) w false lw = .ok p) ↔
      (w ∈ marginals ∨ ∃ d m, w = condStr d m ∧ '_' ∉ d ∧ m ∈ marginals ∧
        PyStr.sorted (d ++ m) ∈ marginals) := by
  rcases C12_cases w with h0 | ⟨d, m, rfl, hd, hm⟩ | h2
  · constructor
    · rintro ⟨p, hp⟩
      left
      by_contra hn
      rw [(C12_no_underscore h lw w h0).2 hn] at hp; cases hp
    · rintro (hw | ⟨d, m, rfl, -⟩)
      · exact (C12_no_underscore h lw w h0).1 hw
      · exact absurd (hasUnderscore_condStr d m) h0
  · constructor
    · rintro ⟨p, hp⟩
      right
      refine ⟨d, m, rfl, hd, ?_⟩
      by_contra hn
      rw [(C12_one_underscore h lw d m hd hm).2 hn] at hp; cases hp
    · rintro (hw | ⟨d', m', e, hd', hm', hj⟩)
      · exact absurd hw (condStr_not_marginal d m)
      · have h1 := split_condStr hd hm
        have hmu' := (marginals_chars m' hm').noUnderscore
        rw [e, split_condStr hd' hmu'] at h1
        obtain ⟨rfl, rfl⟩ : d' = d ∧ m' = m := by simpa using h1
        exact (C12_one_underscore h lw d' m' hd hm).1 ⟨hm', hj⟩
  · rw [C12_many_underscores cube stored w h2]
    constructor
    · rintro ⟨p, hp⟩; cases hp
    · rintro (hw | ⟨d, m, rfl, hd, hm, -⟩)
      · exfalso
        have := (marginals_chars w hw).noUnderscore
        rw [List.count_eq_zero_of_not_mem this] at h2; omega
      · exfalso
        have := (marginals_chars m hm).noUnderscore
        simp [condStr, List.count_eq_zero_of_not_mem this, List.count_eq_zero_of_not_mem hd] at h2

/-- With `density=True` the string `vt_x` (dependents not in alphabetical order) raises `ValueError`
because the volume element does not fit, as soon as the grid has different numbers (≥ 2) of age and
velocity bins. -/
theorem C12_unsorted_density_rejected (h : BaseIs cube stored g ρ L) (lw : Bool)
    (h1 : g.nt ≠ g.nv) (h2 : g.nt ≠ 1) (h3 : g.nv ≠ 1) :
    getP (baseSelf cube stored) (condStr ['v','t'] ['x']) true lw = .error .valueError := by
  rw [getP_one_underscore cube stored _ _ (by decide) (by decide)]
  have hc : (['t','v'], ['x']) ∈ conditionals := by decide
  obtain ⟨fJ, hJ⟩ := C12_marginal_exists h lw (w := unionStr ['t','v'] ['x']) (by decide)
  obtain ⟨fM, hM⟩ := C12_marginal_exists h lw (w := ['x']) (by decide)
  obtain ⟨C, hC, hC'⟩ := condFromJoint_gen (s := baseSelf cube stored) h.proper h.cubeIs false _ hc hJ hM
  obtain ⟨d, hd, hds, -⟩ := volumeElement_cond_shape h.cubeIs h.proper.nx h.proper.ny
    (a := ['v','t']) (b := ['x']) (by unfold DistChars; decide) (by unfold DistChars; decide)
  have hcs := hC'.1
  simp [Grid.shapeOf, Grid.shape1, condStr] at hcs
  simp [PyStr.replaceX, volDim] at hds
  have e : condFromJoint (baseSelf cube stored) (condStr ['v','t'] ['x']) ['v','t'] ['x'] true lw =
      sub C (Np.map Num.log d) := by
    rw [condFromJoint_perm _ _ (condStr ['v','t'] ['x']) _ ['v','t'] _ (List.Perm.swap _ _ _)] at hC
    rw [condFromJoint_density]
    have hC : condFromJoint (baseSelf cube stored) (condStr ['v','t'] ['x']) ['v','t'] ['x'] false lw
      = .ok C := hC
    have hcu : (baseSelf cube stored).cube = cube := rfl
    rw [hC, hcu, hd]; rfl
  rw [e]
  have hb : bshapeR C.shape.reverse d.shape.reverse = none := by
    rw [hcs, hds]
    simp [bshapeR, bdim, h1, h1.symm, h2, h3]
  simp [sub, bop, Np.map, hb, Except.map]

/-! ### Non-vacuity: a concrete component -/

/-- Unnormalised density: empty first pixel column, increasing with age and velocity elsewhere. -/
def demoRho0 (c : Cell) : ℝ := if c.x = 0 then 0 else (c.t + 1) * (c.v + 1)

/-- The normalised density. -/
def demoRho (c : Cell) : ℝ := demoRho0 c / demoGrid.sumCells (massP demoGrid demoRho0)

/-- Its array of logarithms (with `-inf` entries). -/
def demoStored : Arr Num where
  shape := [2, 4, 5, 6, 3]
  get := fun i => Num.lg (demoRho ⟨i.getD 0 0, i.getD 1 0, i.getD 2 0, i.getD 3 0, i.getD 4 0⟩)

/-- The light weights of `demoSSPs`. -/
def demoL (t _z : ℕ) : ℝ := t + 1

theorem sumCells_pos {g : Grid} {f : Cell → ℝ} (h : ∀ c, g.Has c → 0 ≤ f c) {c : Cell} (hc : g.Has c)
    (hp : 0 < f c) : 0 < g.sumCells f := by
  rcases (sumCells_nonneg h).eq_or_lt with e | e
  · exact absurd (sumCells_zero_term h e.symm hc) hp.ne'
  · exact e

theorem sumCells_div (g : Grid) (f : Cell → ℝ) (k : ℝ) :
    g.sumCells (fun c => f c / k) = g.sumCells f / k := by
  simp only [Grid.sumCells, div_eq_mul_inv, Finset.sum_mul]

theorem demoRho0_nonneg (c : Cell) : 0 ≤ demoRho0 c := by
  unfold demoRho0; split_ifs <;> positivity

theorem demoHas : demoGrid.Has ⟨1, 2, 3, 4, 2⟩ := by
  simp [Grid.Has, demoGrid, cubeGrid]

theorem demoTotal_pos : 0 < demoGrid.sumCells (massP demoGrid demoRho0) :=
  sumCells_pos (fun _ hc => massP_nonneg demoGrid_proper demoRho0_nonneg hc) demoHas
    (mul_pos (by norm_num [demoRho0]) (cellVolume_pos demoGrid_proper demoHas))

theorem demoRho_nonneg (c : Cell) : 0 ≤ demoRho c := div_nonneg (demoRho0_nonneg c) demoTotal_pos.le

/-- The component of the example meets all hypotheses used above: it is built by the constructors,
its density is normalised, it has light, and some conditioning events have probability zero while
others have not. -/
theorem demoBase : ∃ cube, IFUCube.init demoSSPs 5 6 4 (-1, 1) (0, 3) (-100, 300) = .ok cube ∧
    Component.init cube demoStored = .ok demoStored ∧
    BaseIs cube demoStored demoGrid demoRho demoL ∧
    demoGrid.sumCells (massP demoGrid demoRho) = 1 ∧
    0 < totalLight demoGrid demoL (massP demoGrid demoRho) ∧
    demoGrid.marg (massP demoGrid demoRho) ['x'] ⟨0, 0, 0, 0, 0⟩ = 0 ∧
    demoGrid.marg (massP demoGrid demoRho) ['x'] ⟨0, 0, 1, 0, 0⟩ ≠ 0 := by
  obtain ⟨c, h1, h2, h3⟩ := demoCube_exists
  have hs : IsArr demoGrid ['t','v','x','z'] demoStored (fun c => Num.lg (demoRho c)) :=
    ⟨rfl, fun c _ => rfl⟩
  refine ⟨c, h1, ?_, ⟨demoGrid_proper, h2, hs, demoRho_nonneg, ?_, ?_⟩, ?_, ?_, ?_, ?_⟩
  · exact (C04_constructor_shape h2 demoGrid_proper demoStored).1 rfl
  · rw [h3]; exact ⟨rfl, fun c _ => rfl⟩
  · intro t z; unfold demoL; positivity
  · have e : massP demoGrid demoRho = fun c => massP demoGrid demoRho0 c /
        demoGrid.sumCells (massP demoGrid demoRho0) := by
      funext c; simp only [massP, demoRho]; ring
    rw [e, sumCells_div, div_self demoTotal_pos.ne']
  · refine sumCells_pos (c := ⟨1, 2, 3, 4, 2⟩) (fun c hc => mul_nonneg (by unfold demoL; positivity)
      (massP_nonneg demoGrid_proper demoRho_nonneg hc)) demoHas ?_
    refine mul_pos (by norm_num [demoL]) (mul_pos (div_pos (by norm_num [demoRho0]) demoTotal_pos)
      (cellVolume_pos demoGrid_proper demoHas))
  · unfold Grid.marg Grid.sumCells
    refine Finset.sum_eq_zero fun t _ => Finset.sum_eq_zero fun v _ => Finset.sum_eq_zero fun x _ =>
      Finset.sum_eq_zero fun y _ => Finset.sum_eq_zero fun z _ => ?_
    show (if _ then _ else _) = (0 : ℝ)
    split_ifs with e
    · have : (x : ℕ) = 0 := by simp [coords, coord1] at e; exact e.1
      simp [massP, demoRho, demoRho0, this]
    · rfl
  · have hh : demoGrid.Has ⟨0, 0, 1, 0, 0⟩ := by simp [Grid.Has, demoGrid, cubeGrid]
    refine (sumCells_pos (c := ⟨0, 0, 1, 0, 0⟩) (fun d hd => ?_) hh ?_).ne'
    · split_ifs
      · exact massP_nonneg demoGrid_proper demoRho_nonneg hd
      · exact le_rfl
    · simp only [if_true]
      exact mul_pos (div_pos (by norm_num [demoRho0]) demoTotal_pos) (cellVolume_pos demoGrid_proper hh)

/-- The unsorted-density counterexample applies to this component (2 age bins, 4 velocity bins). -/
example : ∃ cube, getP (baseSelf cube demoStored) (condStr ['v','t'] ['x']) true false =
      .error .valueError ∧
    ∃ p, getP (baseSelf cube demoStored) (condStr ['v','t'] ['x']) false false = .ok p := by
  obtain ⟨cube, -, -, h, -⟩ := demoBase
  refine ⟨cube, C12_unsorted_density_rejected h false ?_ ?_ ?_, (C12_accepted h false _).2 (.inr
    ⟨['v','t'], ['x'], rfl, by decide, by decide, by decide⟩)⟩ <;> simp [demoGrid, cubeGrid]

/-- The conditionals of this component are nan in the empty pixels and numbers elsewhere. -/
example : ∃ cube p, getP (baseSelf cube demoStored) (condStr ['v'] ['x']) false false = .ok p ∧
    p.get [2, 0, 0] = .nan ∧ p.get [2, 1, 0] ≠ .nan := by
  obtain ⟨cube, -, -, h, -, -, h0, h1⟩ := demoBase
  obtain ⟨p, hp, -, hg⟩ := C06_conditionals h ['v'] ['x'] (by decide)
  refine ⟨cube, p, hp, ?_, ?_⟩
  · have := hg ⟨0, 2, 0, 0, 0⟩ (by simp [Grid.Has, demoGrid, cubeGrid])
    have this : p.get [2, 0, 0] = _ := this
    rw [this, Grid.condP, if_pos]
    simpa [Grid.marg, coords, coord1] using h0
  · have := hg ⟨0, 2, 1, 0, 0⟩ (by simp [Grid.Has, demoGrid, cubeGrid])
    have this : p.get [2, 1, 0] = _ := this
    rw [this, Grid.condP, if_neg]
    · simp
    · simpa [Grid.marg, coords, coord1] using h1

end PKM
