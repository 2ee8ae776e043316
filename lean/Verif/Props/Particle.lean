import Verif.HistLemmas
import Verif.Props.Protocol

/-!
# C39: components from particles

`fromParticle cube t v x1 x2 z mass` is `FromParticle(cube, t, v, x1, x2, z, mass_weights=mass)`; the result is the
stored array of log densities and the numbers in the printed message.
`Star`, `Grid.inCell`, `Grid.inRange`, `Grid.massIn`, `Grid.massCovered`, `Grid.report` (`HistLemmas.lean`) are the
specification: positions of the particles, and the mass in a cell and in the whole grid.
-/

open scoped Classical

noncomputable section

namespace PKM
open Np Component

variable {cube : IFUCube} {g : Grid} {L : ℕ → ℕ → ℝ}

/-- The constructor, called with the positions and masses of a list of particles. -/
def fromStars (cube : IFUCube) (S : List Star) : Py (Arr Num × LossReport) :=
  fromParticle cube (S.map (·.t)) (S.map (·.v)) (S.map (·.x)) (S.map (·.y)) (S.map (·.z)) (some (S.map fun s => .fin s.mass))

/-- The constructor, called without masses. -/
def fromStarsNoMass (cube : IFUCube) (S : List Star) : Py (Arr Num × LossReport) :=
  fromParticle cube (S.map (·.t)) (S.map (·.v)) (S.map (·.x)) (S.map (·.y)) (S.map (·.z)) none

theorem fromStars_eval (hc : CubeIs cube g) (hg : g.Proper) (S : List Star) :
    ∃ stored, fromStars cube S = .ok (stored, g.report S) ∧ IsArr g ['t','v','x','z'] stored (fun c =>
        Num.log (.fin (g.massIn S c / g.cellVolume c) / .fin (g.massCovered S))) :=
  fromParticle_eval hc hg S _ (by simp) (histRows_some S)

theorem massIn_nonneg {S : List Star} (h : ∀ s ∈ S, 0 ≤ s.mass) (c : Cell) : 0 ≤ g.massIn S c := by
  refine List.sum_nonneg fun x hx => ?_
  obtain ⟨s, hs, rfl⟩ := List.mem_map.1 hx
  split
  · exact h s hs
  · exact le_rfl

/-- The density made by the constructor. -/
def Grid.starDensity (g : Grid) (S : List Star) (c : Cell) : ℝ :=
  if g.Has c then g.massIn S c / g.cellVolume c / g.massCovered S else 0

/-- With some mass in range the constructor succeeds, reports what was lost, and makes a component to which everything proved
about components applies. -/
theorem C39_component (hc : CubeIs cube g) (hg : g.Proper)
    (hlight : IsArr g ['t','z'] cube.ssps.lightWeights (fun c => .fin (L c.t c.z))) (hL : ∀ t z, 0 ≤ L t z)
    (S : List Star) (hm : ∀ s ∈ S, 0 ≤ s.mass) (h0 : 0 < g.massCovered S) :
    ∃ stored, fromStars cube S = .ok (stored, g.report S) ∧ BaseIs cube stored g (g.starDensity S) L := by
  obtain ⟨st, h1, h2⟩ := fromStars_eval hc hg S
  refine ⟨st, h1, ⟨hg, hc, h2.congr fun c hc => ?_, fun c => ?_, hlight, hL⟩⟩
  · rw [Num.fin_div _ _ h0.ne', Num.log_fin]
    simp [Grid.starDensity, hc]
  · unfold Grid.starDensity
    split
    · next hc => exact div_nonneg (div_nonneg (massIn_nonneg hm c) (cellVolume_pos hg hc).le) h0.le
    · exact le_rfl

theorem starDensity_mass (hg : g.Proper) (S : List Star) {c : Cell} (hc : g.Has c) :
    massP g (g.starDensity S) c = g.massIn S c / g.massCovered S := by
  have := (cellVolume_pos hg hc).ne'
  simp only [massP, Grid.starDensity, hc, if_true]
  field_simp

/-- Every bin holds the fraction of the mass in range that lies in it. -/
theorem C39_histogram (hc : CubeIs cube g) (hg : g.Proper)
    (hlight : IsArr g ['t','z'] cube.ssps.lightWeights (fun c => .fin (L c.t c.z))) (hL : ∀ t z, 0 ≤ L t z)
    (S : List Star) (hm : ∀ s ∈ S, 0 ≤ s.mass) (h0 : 0 < g.massCovered S) :
    ∃ stored p, fromStars cube S = .ok (stored, g.report S) ∧
      getP (baseSelf cube stored) ['t','v','x','z'] false false = .ok p ∧ p.shape = [g.nt, g.nv, g.nx, g.ny, g.nz] ∧
      (∀ c, g.Has c → p.get [c.t, c.v, c.x, c.y, c.z] = .fin (g.massIn S c / g.massCovered S)) ∧
      sumAll p = scalar (.fin 1) := by
  obtain ⟨st, h1, h2⟩ := C39_component hc hg hlight hL S hm h0
  obtain ⟨p, h3, h4⟩ := getP_marg_of_contract (h2.contract false (by simp)) false ['t','v','x','z'] (by decide)
  have h5 : IsArr g ['t','v','x','z'] p (fun c => .fin (g.massIn S c / g.massCovered S)) := h4.congr fun c hc => by
    have := marg_eq_sumOver g (wtdP g L (massP g (g.starDensity S)) false) ['t','v','x','z'] (by decide) c hc
    rw [this]
    show Num.fin (massP g (g.starDensity S) c / _) = _
    rw [starDensity_mass hg S hc]
    simp [dvol]
  refine ⟨st, p, h1, h3, h5.1, fun c hc => h5.2 c hc, ?_⟩
  rw [sumAll_tvxz h5]
  congr 2
  have : (fun c => g.massIn S c / g.massCovered S) = fun c => (g.massCovered S)⁻¹ * g.massIn S c := by funext c; ring
  rw [this]
  have e : g.sumCells (fun c => (g.massCovered S)⁻¹ * g.massIn S c) = (g.massCovered S)⁻¹ * g.sumCells (g.massIn S) := by
    simp only [Grid.sumCells, Finset.mul_sum]
  rw [e, sum_massIn hg, inv_mul_cancel₀ h0.ne']

/-- A particle that is in range lies in exactly one cell, so the cells share out the mass in range. -/
theorem C39_partition (hg : g.Proper) (s : Star) :
    (g.inRange s ↔ ∃ c, g.Has c ∧ g.inCell c s) ∧
    (∀ c d, g.Has c → g.Has d → g.inCell c s → g.inCell d s → c = d) := by
  refine ⟨⟨fun h => ?_, ?_⟩, ?_⟩
  · obtain ⟨t, a1, a2⟩ := exists_bin hg.nt hg.t h.1
    obtain ⟨v, b1, b2⟩ := exists_bin hg.nv hg.v h.2.1
    obtain ⟨x, c1, c2⟩ := exists_bin hg.nx hg.x h.2.2.1
    obtain ⟨y, d1, d2⟩ := exists_bin hg.ny hg.y h.2.2.2.1
    obtain ⟨z, e1, e2⟩ := exists_bin hg.nz hg.z h.2.2.2.2
    exact ⟨⟨t, v, x, y, z⟩, ⟨a1, b1, c1, d1, e1⟩, a2, b2, c2, d2, e2⟩
  · rintro ⟨c, hc, h⟩
    exact ⟨h.1.inRange hg.t hc.1, h.2.1.inRange hg.v hc.2.1, h.2.2.1.inRange hg.x hc.2.2.1,
      h.2.2.2.1.inRange hg.y hc.2.2.2.1, h.2.2.2.2.inRange hg.z hc.2.2.2.2⟩
  · rintro ⟨t, v, x, y, z⟩ ⟨t', v', x', y', z'⟩ hc hd h h'
    obtain rfl := h.1.unique hg.t hc.1 hd.1 h'.1
    obtain rfl := h.2.1.unique hg.v hc.2.1 hd.2.1 h'.2.1
    obtain rfl := h.2.2.1.unique hg.x hc.2.2.1 hd.2.2.1 h'.2.2.1
    obtain rfl := h.2.2.2.1.unique hg.y hc.2.2.2.1 hd.2.2.2.1 h'.2.2.2.1
    obtain rfl := h.2.2.2.2.unique hg.z hc.2.2.2.2 hd.2.2.2.2 h'.2.2.2.2
    rfl

/-- Two lists of particles that put the same mass in every cell, up to a common factor, make the same component. -/
theorem same_stored (hc : CubeIs cube g) (hg : g.Proper) {S S' : List Star} {k : ℝ} (hk : k ≠ 0)
    (h : ∀ c, g.Has c → g.massIn S' c = k * g.massIn S c) :
    ∃ st st', fromStars cube S = .ok (st, g.report S) ∧ fromStars cube S' = .ok (st', g.report S') ∧
      st.shape = st'.shape ∧ ∀ c, g.Has c → g.massCovered S ≠ 0 →
        st.get [c.t, c.v, c.x, c.y, c.z] = st'.get [c.t, c.v, c.x, c.y, c.z] := by
  obtain ⟨st, h1, h2⟩ := fromStars_eval hc hg S
  obtain ⟨st', h1', h2'⟩ := fromStars_eval hc hg S'
  have hcov : g.massCovered S' = k * g.massCovered S := by
    rw [← sum_massIn hg, ← sum_massIn hg]
    have e : k * g.sumCells (g.massIn S) = g.sumCells (fun c => k * g.massIn S c) := by
      simp only [Grid.sumCells, Finset.mul_sum]
    rw [e]
    unfold Grid.sumCells
    refine Finset.sum_congr rfl fun t _ => Finset.sum_congr rfl fun v _ => Finset.sum_congr rfl
      fun x _ => Finset.sum_congr rfl fun y _ => Finset.sum_congr rfl fun z _ => ?_
    exact h _ ⟨t.2, v.2, x.2, y.2, z.2⟩
  refine ⟨st, st', h1, h1', h2.1.trans h2'.1.symm, fun c hc h0 => ?_⟩
  have e1 := h2.2 c hc
  have e2 := h2'.2 c hc
  have hv := (cellVolume_pos hg hc).ne'
  beta_reduce at e1 e2
  rw [h c hc, hcov, Num.fin_div _ _ (mul_ne_zero hk h0)] at e2
  rw [Num.fin_div _ _ h0] at e1
  refine e1.trans (Eq.trans ?_ e2.symm)
  congr 2
  field_simp

/-- The order of the particles does not matter. -/
theorem C39_order (hc : CubeIs cube g) (hg : g.Proper) {S S' : List Star} (hp : S.Perm S') :
    ∃ st st', fromStars cube S = .ok (st, g.report S) ∧ fromStars cube S' = .ok (st', g.report S) ∧
      st.shape = st'.shape ∧ ∀ c, g.Has c → g.massCovered S ≠ 0 →
        st.get [c.t, c.v, c.x, c.y, c.z] = st'.get [c.t, c.v, c.x, c.y, c.z] := by
  have e : ∀ c, g.massIn S' c = 1 * g.massIn S c := fun c => by
    rw [one_mul]; exact ((hp.map _).sum_eq).symm
  have hr : g.report S' = g.report S := by
    unfold Grid.report
    simp only [hp.length_eq, hp.countP_eq]
  obtain ⟨st, st', h1, h2, h3, h4⟩ := same_stored hc hg one_ne_zero (fun c _ => e c)
  exact ⟨st, st', h1, hr ▸ h2, h3, h4⟩

/-- The unit of mass does not matter. -/
theorem C39_mass_scale (hc : CubeIs cube g) (hg : g.Proper) (S : List Star) {k : ℝ} (hk : k ≠ 0) :
    ∃ st st', fromStars cube S = .ok (st, g.report S) ∧
      fromStars cube (S.map fun s => { s with mass := k * s.mass }) = .ok (st', g.report S) ∧
      st.shape = st'.shape ∧ ∀ c, g.Has c → g.massCovered S ≠ 0 →
        st.get [c.t, c.v, c.x, c.y, c.z] = st'.get [c.t, c.v, c.x, c.y, c.z] := by
  have e : ∀ c, g.massIn (S.map fun s => { s with mass := k * s.mass }) c = k * g.massIn S c := fun c => by
    simp only [Grid.massIn, List.map_map, Function.comp_def, ← List.sum_map_mul_left]
    congr 1
    refine List.map_congr_left fun s _ => ?_
    have : g.inCell c { s with mass := k * s.mass } ↔ g.inCell c s := Iff.rfl
    simp only [this]
    split <;> simp
  have hr : g.report (S.map fun s => { s with mass := k * s.mass }) = g.report S := by
    unfold Grid.report
    simp only [List.length_map, List.countP_map, Function.comp_def]
    rfl
  obtain ⟨st, st', h1, h2, h3, h4⟩ := same_stored hc hg hk (fun c _ => e c)
  exact ⟨st, st', h1, hr ▸ h2, h3, h4⟩

/-- Particles out of range are ignored. -/
theorem C39_ignored (hc : CubeIs cube g) (hg : g.Proper) (S S' : List Star) (hS' : ∀ s ∈ S', ¬ g.inRange s) :
    ∃ st st', fromStars cube S = .ok (st, g.report S) ∧ fromStars cube (S ++ S') = .ok (st', g.report (S ++ S')) ∧
      st.shape = st'.shape ∧ (∀ c, g.Has c → g.massCovered S ≠ 0 →
        st.get [c.t, c.v, c.x, c.y, c.z] = st'.get [c.t, c.v, c.x, c.y, c.z]) ∧
      (g.report (S ++ S')).nLost = (g.report S).nLost + S'.length := by
  have e : ∀ c, g.Has c → g.massIn (S ++ S') c = 1 * g.massIn S c := fun c hc => by
    have : (S'.map fun s => if g.inCell c s then s.mass else 0) = S'.map fun _ => 0 :=
      List.map_congr_left fun s hs => by
        have : ¬ g.inCell c s := fun h => hS' s hs ((C39_partition hg s).1.2 ⟨c, hc, h⟩)
        simp [this]
    simp [Grid.massIn, this]
  obtain ⟨st, st', h1, h2, h3, h4⟩ := same_stored hc hg one_ne_zero e
  refine ⟨st, st', h1, h2, h3, h4, ?_⟩
  simp only [Grid.report, List.countP_append]
  congr 1
  exact List.countP_eq_length.2 (by simpa using hS')

/-- Without masses all particles count the same. -/
theorem C39_equal_masses (hc : CubeIs cube g) (hg : g.Proper) (S : List Star) :
    ∃ st st', fromStarsNoMass cube S = .ok (st, g.report S) ∧
      fromStars cube (S.map fun s => { s with mass := 1 }) = .ok (st', g.report S) ∧
      st.shape = st'.shape ∧ ∀ c, g.Has c → st.get [c.t, c.v, c.x, c.y, c.z] = st'.get [c.t, c.v, c.x, c.y, c.z] := by
  obtain ⟨st', h1, h2⟩ := fromStars_eval hc hg (S.map fun s => { s with mass := 1 })
  have hr : g.report (S.map fun s => { s with mass := 1 }) = g.report S := by
    unfold Grid.report
    simp only [List.length_map, List.countP_map, Function.comp_def]
    rfl
  have e := fromParticle_eval hc hg (S.map fun s => { s with mass := 1 }) none (by simp) (by
    rw [histRows_none]; simp [List.map_map, Function.comp_def])
  obtain ⟨st, h3, h4⟩ := e
  refine ⟨st, st', ?_, hr ▸ h1, h4.1.trans h2.1.symm, fun c hc => (h4.2 c hc).trans (h2.2 c hc).symm⟩
  rw [hr] at h3
  simpa only [fromStarsNoMass, List.map_map, Function.comp_def] using h3

/-- Every particle is counted: the reported loss is the number of particles that are not in any cell, and for each variable those
below and above the range are reported. -/
theorem C39_counts (hc : CubeIs cube g) (hg : g.Proper) (S : List Star) :
    ∃ st rep, fromStars cube S = .ok (st, rep) ∧ rep.nTotal = S.length ∧
      rep.nLost = S.countP (fun s => ¬ ∃ c, g.Has c ∧ g.inCell c s) ∧
      rep.perVar.length = 5 ∧
      ∀ k (hk : k < 5), rep.perVar[k]? =
        let e : ℕ → ℝ := [g.t, g.v, g.x, g.y, g.z][k]
        let n := [g.nt, g.nv, g.nx, g.ny, g.nz][k]
        let q : Star → Num := [fun s : Star => s.t, fun s => s.v, fun s => s.x, fun s => s.y, fun s => s.z][k]
        some (S.countP (fun s => Num.lt (q s) (.fin (e 0))), S.countP (fun s => Num.lt (.fin (e n)) (q s))) := by
  obtain ⟨st, h1, -⟩ := fromStars_eval hc hg S
  refine ⟨st, _, h1, rfl, ?_, rfl, ?_⟩
  · show S.countP _ = _
    simp only [(C39_partition hg _).1]
  · intro k hk
    rcases k with _ | _ | _ | _ | _ | k
    · rfl
    · rfl
    · rfl
    · rfl
    · rfl
    · omega

/-- If no particle is in range the constructor does not fail: every stored value is nan. -/
theorem C39_nothing_in_range (hc : CubeIs cube g) (hg : g.Proper) (S : List Star) (h : ∀ s ∈ S, ¬ g.inRange s) :
    ∃ st, fromStars cube S = .ok (st, g.report S) ∧ (g.report S).nLost = S.length ∧
      ∀ c, g.Has c → st.get [c.t, c.v, c.x, c.y, c.z] = .nan := by
  obtain ⟨st, h1, h2⟩ := fromStars_eval hc hg S
  refine ⟨st, h1, List.countP_eq_length.2 (by simpa using h), fun c hc => (h2.2 c hc).trans ?_⟩
  have e1 : g.massCovered S = 0 := by
    have : (S.map fun s => if g.inRange s then s.mass else 0) = S.map fun _ => 0 :=
      List.map_congr_left fun s hs => by simp [h s hs]
    simp [Grid.massCovered, this]
  have e2 : g.massIn S c = 0 := by
    have : (S.map fun s => if g.inCell c s then s.mass else 0) = S.map fun _ => 0 :=
      List.map_congr_left fun s hs => by
        have : ¬ g.inCell c s := fun h' => h s hs ((C39_partition hg s).1.2 ⟨c, hc, h'⟩)
        simp [this]
    simp [Grid.massIn, this]
  beta_reduce
  rw [e1, e2, zero_div, Num.fin_div_zero]
  simp [Num.infSign, Num.log]

/-- Data arrays of different lengths, or weights of another length, raise `ValueError`. -/
theorem C39_lengths (hc : CubeIs cube g) (hg : g.Proper) (t v x1 x2 z : List Num) (W : Option (List Num))
    (h : (∃ s ∈ [v, x1, x2, z], s.length ≠ t.length) ∨ ∃ w ∈ W, w.length ≠ t.length) :
    fromParticle cube t v x1 x2 z W = .error .valueError := by
  obtain ⟨⟨et, et1, -⟩, -⟩ := C03_values_edges hc hg ['t'] g.nt g.t rfl
  obtain ⟨⟨ev, ev1, -⟩, -⟩ := C03_values_edges hc hg ['v'] g.nv g.v rfl
  obtain ⟨⟨ex, ex1, -⟩, -⟩ := C03_values_edges hc hg ['x','1'] g.nx g.x rfl
  obtain ⟨⟨ey, ey1, -⟩, -⟩ := C03_values_edges hc hg ['x','2'] g.ny g.y rfl
  obtain ⟨⟨ez, ez1, -⟩, -⟩ := C03_values_edges hc hg ['z'] g.nz g.z rfl
  have hE : [['t'], ['v'], ['x','1'], ['x','2'], ['z']].mapM cube.getVariableEdges = .ok [et, ev, ex, ey, ez] := by
    simp [List.mapM_cons, et1, ev1, ex1, ey1, ez1]
  by_cases h1 : ∃ s ∈ [t, v, x1, x2, z], s.length ≠ t.length
  · simp only [fromParticle, hE, h1, if_true, Py.ok_bind]
  · have h2 : ∃ w ∈ W, w.length ≠ t.length := by
      rcases h with ⟨s, hs, h⟩ | h
      · exact absurd ⟨s, List.mem_cons_of_mem _ hs, h⟩ h1
      · exact h
    have : histogramdd [t, v, x1, x2, z] [et, ev, ex, ey, ez] W = .error .valueError := by
      simp only [histogramdd, List.headD_cons, h1, h2, if_true, if_false]
    simp only [fromParticle, hE, h1, if_false, Py.ok_bind, this]
    rfl

/-! ### The hypotheses are met -/

/-- Three particles on the demonstration cube: one on the last age edge, one inside, one out of range. -/
def demoStars : List Star :=
  [⟨.fin 4, .fin 0, .fin 0, .fin 1, .fin 2, 3⟩, ⟨.fin 0, .fin (-100), .fin 1, .fin 0, .fin 5, 1⟩,
    ⟨.fin 5, .nan, .fin 0, .fin 1, .fin 2, 7⟩]

theorem demoStars_covered : demoGrid.massCovered demoStars = 4 := by
  have r : ∀ (e : ℕ → ℝ) (n : ℕ) (x : ℝ), InRange e n (.fin x) ↔ e 0 ≤ x ∧ x ≤ e n := by
    intro e n x; simp [InRange]
  have nr : ∀ (e : ℕ → ℝ) (n : ℕ), ¬ InRange e n .nan := by intro e n; simp [InRange]
  simp only [Grid.massCovered, demoStars, List.map_cons, List.map_nil, Grid.inRange, r, nr, false_and, and_false, if_false]
  simp only [demoGrid, cubeGrid, evenEdges]
  norm_num

example : ∃ cube stored p, CubeIs cube demoGrid ∧ fromStars cube demoStars = .ok (stored, demoGrid.report demoStars) ∧
    getP (baseSelf cube stored) ['t','v','x','z'] false false = .ok p ∧ sumAll p = scalar (.fin 1) ∧
    (demoGrid.report demoStars).nTotal = 3 := by
  obtain ⟨cube, -, hc, hs⟩ := demoCube_exists
  obtain ⟨st, p, h1, h2, -, -, h3⟩ := C39_histogram hc demoGrid_proper (demo_light hs) (fun t z => (demoL_pos t z).le) demoStars
    (by simp [demoStars]) (by rw [demoStars_covered]; norm_num)
  exact ⟨cube, st, p, hc, h1, h2, h3, rfl⟩

end PKM
