import Verif.Props.VelocityBins
import Verif.Props.GivenOnly
import Verif.Props.FluxUnit

/-!
# C105: a stream seen through a smaller field of view

Make a stream twice, with the same setter calls, on a cube and on a cube that has only some of the columns and rows of pixels of the first. In a pixel
of both cubes the stars are the same: distributions, means, moments, covariances and L-moments given the position are equal. Probabilities are normalised
to the field of view: marginal distributions with the position, and the datacube, are those of the larger cube divided by the fraction of
its stars (or of its light) which are in the smaller field. The star formation history by mass is the same.

This is false of growing disks: their dispersions and metallicities change with the largest `|x|` of the pixels of the cube
(`C105_disk_wrong`). Their star formation history and mean velocities are the same, their images of the stars of an age are proportional,
and the stars of an age in a pixel are the same in fields with the same largest `|x|` (`C105_disk_partial`).

* `g.window i0 j0 nx ny` is the grid `g` with the `nx` columns from `i0` and the `ny` rows from `j0` only.
* `moved i0 j0 c` is, in `g`, the cell `c` of that window.
-/

open scoped Classical
open MeasureTheory ProbabilityTheory Set

noncomputable section

namespace PKM
open Np Component

variable {p p' : Param} {g : Grid} {m : Ingredients} {L : ℕ → ℕ → ℝ} {f2 κ : ℝ} {center : ℝ × ℝ} {rotation : ℝ} {i0 j0 nx ny : ℕ}

/-! ### Specification -/

/-- Only some of the columns and rows of pixels. -/
def Grid.window (g : Grid) (i0 j0 nx ny : ℕ) : Grid := { g with nx := nx, ny := ny, x := fun i => g.x (i0 + i), y := fun j => g.y (j0 + j) }

/-- The cell of the whole grid. -/
def moved (i0 j0 : ℕ) (c : Cell) : Cell := { c with x := i0 + c.x, y := j0 + c.y }

/-- `p'` is `p` through the smaller field of view. -/
structure SameInField (p p' : Param) (g : Grid) (i0 j0 nx ny : ℕ) : Prop where
  /-- probabilities of positions are divided by the fraction `φ` of the stars (or light) in the field -/
  marg : ∀ lw, ∃ X φ, getP p.self ['x'] false lw = .ok X ∧ (∑ i : Fin nx, ∑ j : Fin ny, X.get [i0 + i, j0 + j]) = .fin φ ∧ 0 < φ ∧
    ∀ density, ∀ w ∈ marginals, 'x' ∈ w → (lw = false ∨ 'v' ∉ w) → ∃ q q', getP p.self w density lw = .ok q ∧ getP p'.self w density lw = .ok q' ∧
      q.shape = g.shapeOf w ∧ q'.shape = (g.window i0 j0 nx ny).shapeOf w ∧ ∀ c, (g.window i0 j0 nx ny).Has c → ∃ u : ℝ,
        q.get (coords w (moved i0 j0 c)) = .fin u ∧ q'.get (coords w c) = .fin (u / φ)
  /-- distributions given the position are equal -/
  cond : ∀ density lw, ∀ a b, (a, b) ∈ conditionals → 'x' ∈ b → (lw = false ∨ 'v' ∉ a) → ∃ q q', getP p.self (condStr a b) density lw = .ok q ∧
    getP p'.self (condStr a b) density lw = .ok q' ∧ q.shape = g.shapeOf a ++ g.shapeOf b ∧
    q'.shape = (g.window i0 j0 nx ny).shapeOf a ++ (g.window i0 j0 nx ny).shapeOf b ∧
    ∀ c, (g.window i0 j0 nx ny).Has c → q'.get (coords a c ++ coords b c) = q.get (coords a (moved i0 j0 c) ++ coords b (moved i0 j0 c))
  /-- the star formation history -/
  ages : ∀ density, ∃ q q', getP p.self ['t'] density false = .ok q ∧ getP p'.self ['t'] density false = .ok q' ∧ q.shape = [g.nt] ∧ q'.shape = [g.nt] ∧
    ∀ t < g.nt, q'.get [t] = q.get [t]
  /-- means and moments given the position, wherever there are stars -/
  mean : p.f2 = 1 → ∀ lw w, 'x' ∈ w → ∀ q ∈ ['t','v','z'], ValidPair [q] w → ∃ r r', getMean p.self (distStr [q] w) lw = .ok r ∧
    getMean p'.self (distStr [q] w) lw = .ok r' ∧ r.shape = g.shapeOf w ∧ r'.shape = (g.window i0 j0 nx ny).shapeOf w ∧
    ∀ c, (g.window i0 j0 nx ny).Has c → Populated p lw w (moved i0 j0 c) → ∃ u : ℝ, r.get (coords w (moved i0 j0 c)) = .fin u ∧ r'.get (coords w c) = .fin u
  central : p.f2 = 1 → ∀ lw w (j : ℕ), 'x' ∈ w → ∀ q ∈ ['t','v','z'], ValidPair [q] w → ∃ r r', getCentralMoment p.self (distStr [q] w) j lw = .ok r ∧
    getCentralMoment p'.self (distStr [q] w) j lw = .ok r' ∧ r.shape = g.shapeOf w ∧ r'.shape = (g.window i0 j0 nx ny).shapeOf w ∧
    ∀ c, (g.window i0 j0 nx ny).Has c → Populated p lw w (moved i0 j0 c) → ∃ u : ℝ, r.get (coords w (moved i0 j0 c)) = .fin u ∧ r'.get (coords w c) = .fin u
  covariance : p.f2 = 1 → ∀ lw w a a', 'x' ∈ w → (lw = false ∨ a ≠ 'v' ∧ a' ≠ 'v') → ValidPair [a, a'] w → ∃ r r',
    (obj p.self).getCovariance (distStr [a, a'] w) lw = .ok r ∧ (obj p'.self).getCovariance (distStr [a, a'] w) lw = .ok r' ∧
    r.shape = g.shapeOf w ∧ r'.shape = (g.window i0 j0 nx ny).shapeOf w ∧
    ∀ c, (g.window i0 j0 nx ny).Has c → Populated p lw w (moved i0 j0 c) → r'.get (coords w c) = r.get (coords w (moved i0 j0 c))
  correlation : p.f2 = 1 → ∀ lw w a a', 'x' ∈ w → (lw = false ∨ a ≠ 'v' ∧ a' ≠ 'v') → ValidPair [a, a'] w → ∃ r r',
    (obj p.self).getCorrelation (distStr [a, a'] w) lw = .ok r ∧ (obj p'.self).getCorrelation (distStr [a, a'] w) lw = .ok r' ∧
    r.shape = g.shapeOf w ∧ r'.shape = (g.window i0 j0 nx ny).shapeOf w ∧
    ∀ c, (g.window i0 j0 nx ny).Has c → Populated p lw w (moved i0 j0 c) → r'.get (coords w c) = r.get (coords w (moved i0 j0 c))
  /-- L-moments given the position, wherever the distribution is not nan -/
  lmoment : ∀ lw w (j : ℕ), 1 ≤ j → 'x' ∈ w → ∀ q ∈ ['t','v','z'], (lw = false ∨ q ≠ 'v') → ValidPair [q] w → ∃ A r r',
    getP p.self (distStr [q] w) false lw = .ok A ∧ (obj p.self).getLMoment (distStr [q] w) j lw = .ok r ∧
    (obj p'.self).getLMoment (distStr [q] w) j lw = .ok r' ∧ r.shape = g.shapeOf w ∧ r'.shape = (g.window i0 j0 nx ny).shapeOf w ∧
    ∀ c, (g.window i0 j0 nx ny).Has c → (∀ i < g.bins q, A.get (i :: coords w (moved i0 j0 c)) ≠ .nan) →
      r'.get (coords w c) = r.get (coords w (moved i0 j0 c))
  /-- the spectra in the pixels of both, divided by the fraction of the stars in the field -/
  datacube : ∃ X φ, getP p.self ['x'] false false = .ok X ∧ (∑ i : Fin nx, ∑ j : Fin ny, X.get [i0 + i, j0 + j]) = .fin φ ∧ 0 < φ ∧
    ∀ sp S n, 0 < n → SpectraAre sp g S n n → ∀ batch ∈ ["none".toList, "column".toList, "spaxel".toList], ∃ y y',
      p.evaluateYbar sp batch = .ok y ∧ p'.evaluateYbar sp batch = .ok y' ∧ y.shape = [n, g.nx, g.ny] ∧ y'.shape = [n, nx, ny] ∧
      ∀ w < n, ∀ i < nx, ∀ j < ny, ∃ u : ℝ, y.get [w, i0 + i, j0 + j] = .fin u ∧ y'.get [w, i, j] = .fin (u / φ)

/-! ### Lemmas: windows -/

section
variable (hi : i0 + nx ≤ g.nx) (hj : j0 + ny ≤ g.ny)

theorem window_value (q : Char) (c : Cell) : (g.window i0 j0 nx ny).value q c = g.value q (moved i0 j0 c) := rfl

theorem window_volOf (w : PyStr) (c : Cell) : (g.window i0 j0 nx ny).volOf w c = g.volOf w (moved i0 j0 c) := rfl

include hi hj

theorem moved_has {c : Cell} (hc : (g.window i0 j0 nx ny).Has c) : g.Has (moved i0 j0 c) := by
  obtain ⟨h1, h2, h3, h4, h5⟩ := hc
  have h3' : c.x < nx := h3
  have h4' : c.y < ny := h4
  exact ⟨h1, h2, show i0 + c.x < g.nx by omega, show j0 + c.y < g.ny by omega, h5⟩

theorem Grid.Proper.window (h : g.Proper) (hx : 0 < nx) (hy : 0 < ny) : (g.window i0 j0 nx ny).Proper where
  nt := h.nt
  nv := h.nv
  nx := hx
  ny := hy
  nz := h.nz
  t := h.t
  v := h.v
  x i h' := h.x (i0 + i) (by have : i < nx := h'; omega)
  y i h' := h.y (j0 + i) (by have : i < ny := h'; omega)
  z := h.z

omit hi hj in
theorem coords_moved {w : PyStr} (hw : w ∈ [] :: marginals) (c d : Cell) :
    coords w (moved i0 j0 d) = coords w (moved i0 j0 c) ↔ coords w d = coords w c := by
  rw [coords_eq_iff w hw, coords_eq_iff w hw]
  refine forall₂_congr fun ch _ => ?_
  unfold coord1 moved
  split_ifs <;> simp

omit hi hj in
theorem coords_pixel {w : PyStr} (hw : w ∈ [] :: marginals) (hx : 'x' ∈ w) {c d : Cell} (h : coords w d = coords w c) : d.x = c.x ∧ d.y = c.y := by
  have := (coords_eq_iff w hw c d).1 h 'x' hx
  simpa [coord1] using this

theorem sumTXZ_window {F : Cell → ℝ} {a b : ℕ} (ha : a < nx) (hb : b < ny) (hF : ∀ e, F e ≠ 0 → e.x = i0 + a ∧ e.y = j0 + b) :
    Ingredients.sumTXZ (g.window i0 j0 nx ny) (fun d => F (moved i0 j0 d)) = Ingredients.sumTXZ g F := by
  have z : ∀ t v x y z, ¬ (x = i0 + a ∧ y = j0 + b) → F ⟨t, v, x, y, z⟩ = 0 := fun t v x y z hne => by
    by_contra h0
    exact hne (hF _ h0)
  show ∑ t : Fin g.nt, ∑ x : Fin nx, ∑ y : Fin ny, ∑ z : Fin g.nz, F ⟨t, 0, i0 + x, j0 + y, z⟩ =
    ∑ t : Fin g.nt, ∑ x : Fin g.nx, ∑ y : Fin g.ny, ∑ z : Fin g.nz, F ⟨t, 0, x, y, z⟩
  refine Finset.sum_congr rfl fun t _ => ?_
  rw [Finset.sum_eq_single (⟨a, ha⟩ : Fin nx), Finset.sum_eq_single (⟨b, hb⟩ : Fin ny), Finset.sum_eq_single (⟨i0 + a, by omega⟩ : Fin g.nx),
    Finset.sum_eq_single (⟨j0 + b, by omega⟩ : Fin g.ny)]
  · exact fun y _ hne => Finset.sum_eq_zero fun k _ => z _ _ _ _ _ fun e => hne (Fin.ext e.2)
  · simp
  · exact fun x _ hne => Finset.sum_eq_zero fun y _ => Finset.sum_eq_zero fun k _ => z _ _ _ _ _ fun e => hne (Fin.ext e.1)
  · simp
  · exact fun y _ hne => Finset.sum_eq_zero fun k _ => z _ _ _ _ _ fun e => hne (Fin.ext (by have := e.2; simpa using this))
  · simp
  · exact fun x _ hne => Finset.sum_eq_zero fun y _ => Finset.sum_eq_zero fun k _ => z _ _ _ _ _ fun e => hne (Fin.ext (by have := e.1; simpa using this))
  · simp

theorem sumCells_window {F : Cell → ℝ} {a b : ℕ} (ha : a < nx) (hb : b < ny) (hF : ∀ e, F e ≠ 0 → e.x = i0 + a ∧ e.y = j0 + b) :
    (g.window i0 j0 nx ny).sumCells (fun d => F (moved i0 j0 d)) = g.sumCells F := by
  rw [sumCells_sumV, sumCells_sumV]
  refine sumTXZ_window hi hj (F := fun c => ∑ v : Fin g.nv, F { c with v := v }) ha hb fun e he => ?_
  obtain ⟨v, -, hv⟩ := Finset.exists_ne_zero_of_sum_ne_zero he
  exact hF { e with v := v } hv

/-- Sums over the stars in a pixel. -/
theorem sumTXZ_given {w : PyStr} (hw : w ∈ [] :: marginals) (hx : 'x' ∈ w) (f : Cell → ℝ) {c : Cell} (hc : (g.window i0 j0 nx ny).Has c) :
    Ingredients.sumTXZ (g.window i0 j0 nx ny) (fun d => if coords w d = coords w c then f (moved i0 j0 d) else 0) =
      Ingredients.sumTXZ g (fun d => if coords w d = coords w (moved i0 j0 c) then f d else 0) := by
  rw [← sumTXZ_window hi hj (F := fun d => if coords w d = coords w (moved i0 j0 c) then f d else 0) hc.2.2.1 hc.2.2.2.1 fun e he => ?_]
  · exact sumTXZ_congr fun d => if_congr (coords_moved hw c d).symm rfl rfl
  · have := (ite_ne_right_iff.1 he).1
    exact coords_pixel hw hx this

theorem sumCells_given {w : PyStr} (hw : w ∈ [] :: marginals) (hx : 'x' ∈ w) (f : Cell → ℝ) {c : Cell} (hc : (g.window i0 j0 nx ny).Has c) :
    (g.window i0 j0 nx ny).sumCells (fun d => if coords w d = coords w c then f (moved i0 j0 d) else 0) =
      g.sumCells (fun d => if coords w d = coords w (moved i0 j0 c) then f d else 0) := by
  rw [← sumCells_window hi hj (F := fun d => if coords w d = coords w (moved i0 j0 c) then f d else 0) hc.2.2.1 hc.2.2.2.1 fun e he => ?_]
  · exact congrArg (Grid.sumCells _) (funext fun d => if_congr (coords_moved hw c d).symm rfl rfl)
  · have := (ite_ne_right_iff.1 he).1
    exact coords_pixel hw hx this

end

/-! ### Lemmas: populations -/

/-- The ingredients in the window: densities of position are larger by the factor `κ`. -/
def Ingredients.window (m : Ingredients) (κ : ℝ) (i0 j0 : ℕ) : Ingredients where
  pt := m.pt
  px t x y := κ * m.px t (i0 + x) (j0 + y)
  pz t x y z := m.pz t (i0 + x) (j0 + y) z
  mu t x y := m.mu t (i0 + x) (j0 + y)
  sig t x y := m.sig t (i0 + x) (j0 + y)

theorem window_probTXZ (d : Cell) : (m.window κ i0 j0).probTXZ (g.window i0 j0 nx ny) d = κ * m.probTXZ g (moved i0 j0 d) := by
  show m.pt d.t * width g.t d.t * (κ * m.px d.t (i0 + d.x) (j0 + d.y) * (width g.x (i0 + d.x) * width g.y (j0 + d.y))) *
    (m.pz d.t (i0 + d.x) (j0 + d.y) d.z * width g.z d.z) = κ * (m.pt d.t * width g.t d.t *
      (m.px d.t (i0 + d.x) (j0 + d.y) * (width g.x (i0 + d.x) * width g.y (j0 + d.y))) * (m.pz d.t (i0 + d.x) (j0 + d.y) d.z * width g.z d.z))
  ring

theorem window_joint (d : Cell) : (m.window κ i0 j0).joint (g.window i0 j0 nx ny) d = κ * m.joint g (moved i0 j0 d) := by
  unfold Ingredients.joint
  rw [window_probTXZ, mul_assoc]
  rfl

theorem window_vel (φ : ℝ → ℝ) (d : Cell) : ((m.window κ i0 j0).pop (g.window i0 j0 nx ny)).vel φ d = κ * (m.pop g).vel φ (moved i0 j0 d) := by
  unfold Ingredients.pop
  dsimp only
  rw [window_probTXZ, mul_assoc]
  rfl

theorem window_stars (d : Cell) : ((m.window κ i0 j0).pop (g.window i0 j0 nx ny)).stars d = κ * (m.pop g).stars (moved i0 j0 d) := window_vel _ _

section
variable (hi : i0 + nx ≤ g.nx) (hj : j0 + ny ≤ g.ny) {lw : Bool} {w : PyStr} (hw : w ∈ [] :: marginals) (hx : 'x' ∈ w) {c : Cell}
  (hc : (g.window i0 j0 nx ny).Has c)
include hi hj hw hx hc

theorem window_sumTXZ {F : Cell → ℝ} (f : Cell → ℝ) (hF : ∀ d, F d = κ * f (moved i0 j0 d)) :
    Ingredients.sumTXZ (g.window i0 j0 nx ny) (fun d => if coords w d = coords w c then F d else 0) =
      κ * Ingredients.sumTXZ g (fun d => if coords w d = coords w (moved i0 j0 c) then f d else 0) := by
  rw [← sumTXZ_given hi hj hw hx f hc, ← sumTXZ_mul]
  exact sumTXZ_congr fun d => by rw [hF, mul_ite, mul_zero]

theorem window_sumCells {F : Cell → ℝ} (f : Cell → ℝ) (hF : ∀ d, F d = κ * f (moved i0 j0 d)) :
    (g.window i0 j0 nx ny).sumCells (fun d => if coords w d = coords w c then F d else 0) =
      κ * g.sumCells (fun d => if coords w d = coords w (moved i0 j0 c) then f d else 0) := by
  rw [← sumCells_given hi hj hw hx f hc, mul_sumCells]
  exact congrArg (Grid.sumCells _) (funext fun d => by rw [hF, mul_ite, mul_zero])

theorem window_amount : ((m.window κ i0 j0).pop (g.window i0 j0 nx ny)).amount (g.window i0 j0 nx ny) L lw w c =
    κ * (m.pop g).amount g L lw w (moved i0 j0 c) := by
  unfold Pop.amount
  rw [mul_ite]
  refine if_congr Iff.rfl ?_ ?_
  · exact window_sumCells hi hj hw hx hc (fun d => Pop.wt L lw d * (m.pop g).joint d) fun d => by
      rw [show ((m.window κ i0 j0).pop (g.window i0 j0 nx ny)).joint d = _ from window_joint d]
      show _ = κ * (Pop.wt L lw d * m.joint g (moved i0 j0 d))
      ring
  · exact window_sumTXZ hi hj hw hx hc (fun d => Pop.wt L lw d * (m.pop g).stars d) fun d => by
      rw [window_stars]
      show _ = κ * (Pop.wt L lw d * (m.pop g).stars (moved i0 j0 d))
      ring

theorem window_expect (hκ : 0 < κ) (q : Char) (φ : ℝ → ℝ) :
    ((m.window κ i0 j0).pop (g.window i0 j0 nx ny)).expect (g.window i0 j0 nx ny) L lw w q φ c = (m.pop g).expect g L lw w q φ (moved i0 j0 c) := by
  unfold Pop.expect
  rw [window_amount hi hj hw hx hc, ← mul_div_mul_left _ ((m.pop g).amount g L lw w (moved i0 j0 c)) hκ.ne', mul_ite, mul_ite]
  refine congrArg (· / _) (if_congr Iff.rfl ?_ (if_congr Iff.rfl ?_ ?_))
  · exact window_sumTXZ hi hj hw hx hc (fun d => Pop.wt L lw d * (m.pop g).vel φ d) fun d => by
      rw [window_vel]
      show _ = κ * (Pop.wt L lw d * (m.pop g).vel φ (moved i0 j0 d))
      ring
  · exact window_sumCells hi hj hw hx hc (fun d => Pop.wt L lw d * (φ (g.value q d) * (m.pop g).joint d)) fun d => by
      rw [show ((m.window κ i0 j0).pop (g.window i0 j0 nx ny)).joint d = _ from window_joint d]
      show Pop.wt L lw d * (φ (g.value q (moved i0 j0 d)) * (κ * m.joint g (moved i0 j0 d))) =
        κ * (Pop.wt L lw d * (φ (g.value q (moved i0 j0 d)) * m.joint g (moved i0 j0 d)))
      ring
  · exact window_sumTXZ hi hj hw hx hc (fun d => Pop.wt L lw d * (φ (g.value q d) * (m.pop g).stars d)) fun d => by
      rw [window_stars]
      show Pop.wt L lw d * (φ (g.value q (moved i0 j0 d)) * (κ * (m.pop g).stars (moved i0 j0 d))) =
        κ * (Pop.wt L lw d * (φ (g.value q (moved i0 j0 d)) * (m.pop g).stars (moved i0 j0 d)))
      ring

theorem window_mean (hκ : 0 < κ) (q : Char) :
    ((m.window κ i0 j0).pop (g.window i0 j0 nx ny)).mean (g.window i0 j0 nx ny) L lw w q c = (m.pop g).mean g L lw w q (moved i0 j0 c) :=
  window_expect hi hj hw hx hc hκ q _

theorem window_central (hκ : 0 < κ) (q : Char) (j : ℕ) :
    ((m.window κ i0 j0).pop (g.window i0 j0 nx ny)).central (g.window i0 j0 nx ny) L lw w q j c = (m.pop g).central g L lw w q j (moved i0 j0 c) := by
  unfold Pop.central
  rw [window_mean hi hj hw hx hc hκ, window_expect hi hj hw hx hc hκ]

theorem window_givenCov (hκ : 0 < κ) {q q' : Char} (hl : lw = false ∨ q ≠ 'v' ∧ q' ≠ 'v') :
    ((m.window κ i0 j0).pop (g.window i0 j0 nx ny)).givenCov (g.window i0 j0 nx ny) L lw w q q' c =
      (m.pop g).givenCov g L lw w q q' (moved i0 j0 c) := by
  have bc : lw = false → ∀ u, ((m.window κ i0 j0).pop (g.window i0 j0 nx ny)).binCov (g.window i0 j0 nx ny) L lw w u c =
      (m.pop g).binCov g L lw w u (moved i0 j0 c) := fun e u => by
    subst e
    unfold Pop.binCov Pop.marginal
    rw [window_mean hi hj hw hx hc hκ, window_mean hi hj hw hx hc hκ, window_amount hi hj hw hx hc]
    simp only [Bool.false_eq_true, if_false, div_one]
    rw [← mul_div_mul_left _ ((m.pop g).amount g L false w (moved i0 j0 c)) hκ.ne']
    refine congrArg (· / _) ?_
    exact window_sumCells hi hj hw hx hc (fun d => Pop.wt L false d * ((centre g.v d.v - (m.pop g).mean g L false w 'v' (moved i0 j0 c)) *
      (g.value u d - (m.pop g).mean g L false w u (moved i0 j0 c)) * (m.pop g).joint d)) fun d => by
      rw [show ((m.window κ i0 j0).pop (g.window i0 j0 nx ny)).joint d = _ from window_joint d]
      show Pop.wt L false d * ((centre g.v d.v - _) * (g.value u (moved i0 j0 d) - _) * (κ * m.joint g (moved i0 j0 d))) =
        κ * (Pop.wt L false d * ((centre g.v d.v - _) * (g.value u (moved i0 j0 d) - _) * m.joint g (moved i0 j0 d)))
      ring
  unfold Pop.givenCov
  rcases hl with e | ⟨hq, hq'⟩
  · rw [bc e, bc e]
    by_cases h1 : q = 'v'
    · rw [if_pos h1, if_pos h1]
    by_cases h2 : q' = 'v'
    · rw [if_neg h1, if_neg h1, if_pos h2, if_pos h2]
    rw [if_neg h1, if_neg h1, if_neg h2, if_neg h2]
    exact cv hκ q q'
  · rw [if_neg hq, if_neg hq, if_neg hq', if_neg hq']
    exact cv hκ q q'
where
  cv (hκ : 0 < κ) (q q' : Char) : ((m.window κ i0 j0).pop (g.window i0 j0 nx ny)).cov (g.window i0 j0 nx ny) L lw w q q' c =
      (m.pop g).cov g L lw w q q' (moved i0 j0 c) := by
    unfold Pop.cov Pop.expectOf
    rw [window_amount hi hj hw hx hc, window_mean hi hj hw hx hc hκ, window_mean hi hj hw hx hc hκ,
      ← mul_div_mul_left _ ((m.pop g).amount g L lw w (moved i0 j0 c)) hκ.ne', mul_ite]
    refine congrArg (· / _) (if_congr Iff.rfl ?_ ?_)
    · exact window_sumCells hi hj hw hx hc (fun d => Pop.wt L lw d * ((g.value q d - (m.pop g).mean g L lw w q (moved i0 j0 c)) *
        (g.value q' d - (m.pop g).mean g L lw w q' (moved i0 j0 c)) * (m.pop g).joint d)) fun d => by
        rw [show ((m.window κ i0 j0).pop (g.window i0 j0 nx ny)).joint d = _ from window_joint d]
        show Pop.wt L lw d * ((g.value q (moved i0 j0 d) - _) * (g.value q' (moved i0 j0 d) - _) * (κ * m.joint g (moved i0 j0 d))) =
          κ * (Pop.wt L lw d * ((g.value q (moved i0 j0 d) - _) * (g.value q' (moved i0 j0 d) - _) * m.joint g (moved i0 j0 d)))
        ring
    · exact window_sumTXZ hi hj hw hx hc (fun d => Pop.wt L lw d * ((g.value q d - (m.pop g).mean g L lw w q (moved i0 j0 c)) *
        (g.value q' d - (m.pop g).mean g L lw w q' (moved i0 j0 c)) * (m.pop g).stars d)) fun d => by
        rw [window_stars]
        show Pop.wt L lw d * ((g.value q (moved i0 j0 d) - _) * (g.value q' (moved i0 j0 d) - _) * (κ * (m.pop g).stars (moved i0 j0 d))) =
          κ * (Pop.wt L lw d * ((g.value q (moved i0 j0 d) - _) * (g.value q' (moved i0 j0 d) - _) * (m.pop g).stars (moved i0 j0 d)))
        ring

end

/-! ### Lemmas: probabilities -/

/-- Pixels of the whole field together. -/
theorem pixel_total (hg : g.Proper) {q : Pop} (hq : q.Ok g) (lw : Bool) :
    ∑ i : Fin g.nx, ∑ j : Fin g.ny, q.amount g L lw ['x'] ⟨0, 0, i, j, 0⟩ = q.amount g L lw [] ⟨0, 0, 0, 0, 0⟩ := by
  unfold Pop.amount
  simp only [show ('v' ∈ ['x']) = False by simp, List.not_mem_nil, if_false, ← sumTXZ_sum]
  refine sumTXZ_has hg fun d hd => ?_
  rw [Finset.sum_eq_single (⟨d.x, hd.2.2.1⟩ : Fin g.nx), Finset.sum_eq_single (⟨d.y, hd.2.2.2.1⟩ : Fin g.ny)]
  · simp [coords, coord1]
  · intro j _ hne
    rw [if_neg]
    intro e
    simp [coords, coord1] at e
    exact hne (Fin.ext e.symm)
  · simp
  · intro i _ hne
    refine Finset.sum_eq_zero fun j _ => ?_
    rw [if_neg]
    intro e
    simp [coords, coord1] at e
    exact hne (Fin.ext e.1.symm)
  · simp

/-- How much larger probabilities are in the window. -/
def rate (m : Ingredients) (g : Grid) (L : ℕ → ℕ → ℝ) (κ : ℝ) (i0 j0 nx ny : ℕ) (lw : Bool) (w : PyStr) : ℝ :=
  if lw then κ * (m.pop g).lightOf g L w / ((m.window κ i0 j0).pop (g.window i0 j0 nx ny)).lightOf (g.window i0 j0 nx ny) L w else κ

theorem rate_same {w w' : PyStr} {lw : Bool} (h : lw = false ∨ ('v' ∈ w ↔ 'v' ∈ w')) :
    rate m g L κ i0 j0 nx ny lw w = rate m g L κ i0 j0 nx ny lw w' := by
  unfold rate
  rcases h with rfl | h
  · rfl
  · unfold Pop.lightOf
    simp only [h]

section
variable (h : ParamIs p g m L) (h' : ParamIs p' (g.window i0 j0 nx ny) (m.window κ i0 j0) L) (hl : Shines g m L)
  (hl' : Shines (g.window i0 j0 nx ny) (m.window κ i0 j0) L) (hκ : 0 < κ) (hi : i0 + nx ≤ g.nx) (hj : j0 + ny ≤ g.ny)
include h h' hl hl' hκ

theorem rate_pos (lw : Bool) (w : PyStr) : 0 < rate m g L κ i0 j0 nx ny lw w := by
  unfold rate
  split
  · exact div_pos (mul_pos hκ (h.pop_ok.light_pos h.proper h.lightNonneg (by unfold Pop.lightOf; rw [if_neg (by decide), ingr_stars]; exact hl) w))
      (h'.pop_ok.light_pos h'.proper h'.lightNonneg (by unfold Pop.lightOf; rw [if_neg (by decide), ingr_stars]; exact hl') w)
  · exact hκ

include hi hj

theorem window_marginal (lw : Bool) {w : PyStr} (hw : w ∈ [] :: marginals) (hx : 'x' ∈ w) {c : Cell} (hc : (g.window i0 j0 nx ny).Has c) :
    (m.window κ i0 j0).marginal (g.window i0 j0 nx ny) L lw w c = rate m g L κ i0 j0 nx ny lw w * m.marginal g L lw w (moved i0 j0 c) := by
  rw [← ingr_marginal h, ← ingr_marginal h']
  unfold Pop.marginal rate
  rw [window_amount hi hj hw hx hc]
  cases lw
  · simp
  · simp only [if_true]
    have := (h.pop_ok.light_pos h.proper h.lightNonneg (by unfold Pop.lightOf; rw [if_neg (by decide), ingr_stars]; exact hl) w).ne'
    field_simp

/-- Probabilities are divided by the fraction of the stars in the field. -/
theorem window_fraction (lw : Bool) : ∃ X φ, getP p.self ['x'] false lw = .ok X ∧ (∑ i : Fin nx, ∑ j : Fin ny, X.get [i0 + i, j0 + j]) = .fin φ ∧ 0 < φ ∧
    ∀ w, (lw = false ∨ 'v' ∉ w) → ∀ u, rate m g L κ i0 j0 nx ny lw w * u = u / φ := by
  obtain ⟨X, h1, -, h3⟩ := C32_marginals h false lw (fun _ => hl) ['x'] (by decide)
  have one : ∑ i : Fin nx, ∑ j : Fin ny, (m.window κ i0 j0).marginal (g.window i0 j0 nx ny) L lw ['x'] ⟨0, 0, i, j, 0⟩ = 1 := by
    simp only [← ingr_marginal h', Pop.marginal, ← Finset.sum_div]
    have e := pixel_total (L := L) h'.proper h'.pop_ok lw
    refine Eq.trans (congrArg (· / _) e) ?_
    cases lw
    · rw [h'.amount_nil]; simp
    · rw [amount_nil_light h'.proper h'.pop_ok]
      simp only [if_true]
      have e2 : ∀ q : Pop, ∀ g : Grid, q.lightOf g L [] = q.lightOf g L ['x'] := fun q g => by unfold Pop.lightOf; simp
      rw [e2, div_self]
      exact (h'.pop_ok.light_pos h'.proper h'.lightNonneg (by unfold Pop.lightOf; rw [if_neg (by decide), ingr_stars]; exact hl') _).ne'
  have hr := rate_pos h h' hl hl' hκ lw ['x']
  have hc : ∀ (i : Fin nx) (j : Fin ny), (g.window i0 j0 nx ny).Has ⟨0, 0, i, j, 0⟩ := fun i j => ⟨h.proper.nt, h.proper.nv, i.2, j.2, h.proper.nz⟩
  have e1 : ∀ (i : Fin nx) (j : Fin ny), X.get [i0 + i, j0 + j] = .fin (m.marginal g L lw ['x'] (moved i0 j0 ⟨0, 0, i, j, 0⟩)) := fun i j => by
    refine (h3 _ (moved_has hi hj (hc i j))).trans ?_
    simp
  refine ⟨X, _, h1, (Finset.sum_congr rfl fun i _ => (Finset.sum_congr rfl fun j _ => e1 i j).trans (Num.fin_sum _ _)).trans (Num.fin_sum _ _), ?_, fun w hw u => ?_⟩
  all_goals
    have e2 : rate m g L κ i0 j0 nx ny lw ['x'] * ∑ i : Fin nx, ∑ j : Fin ny, m.marginal g L lw ['x'] (moved i0 j0 ⟨0, 0, i, j, 0⟩) = 1 := by
      rw [← one]
      simp only [Finset.mul_sum]
      exact Finset.sum_congr rfl fun i _ => Finset.sum_congr rfl fun j _ => (window_marginal h h' hl hl' hκ hi hj lw (by decide) (by decide) (hc i j)).symm
  · by_contra hn
    nlinarith [mul_nonneg_of_nonpos_of_nonpos (neg_nonpos.2 hr.le) (not_lt.1 hn)]
  · rw [rate_same (w' := ['x']) (hw.imp_right fun hv => by simp [hv])]
    rw [eq_div_iff (fun e => by rw [e] at e2; simp at e2), mul_right_comm, e2, one_mul]

theorem field_cond (density lw : Bool) {a b : PyStr} (hab : (a, b) ∈ conditionals) (hx : 'x' ∈ b) (hv : lw = false ∨ 'v' ∉ a) :
    ∃ q q', getP p.self (condStr a b) density lw = .ok q ∧ getP p'.self (condStr a b) density lw = .ok q' ∧ q.shape = g.shapeOf a ++ g.shapeOf b ∧
      q'.shape = (g.window i0 j0 nx ny).shapeOf a ++ (g.window i0 j0 nx ny).shapeOf b ∧
      ∀ c, (g.window i0 j0 nx ny).Has c → q'.get (coords a c ++ coords b c) = q.get (coords a (moved i0 j0 c) ++ coords b (moved i0 j0 c)) := by
  have ax : ∀ q ∈ conditionals, 'x' ∈ q.2 → 'x' ∉ q.1 ∧ q.2 ∈ marginals ∧ unionStr q.1 q.2 ∈ marginals ∧ 'x' ∈ unionStr q.1 q.2 ∧
      ('v' ∉ q.1 → ('v' ∈ unionStr q.1 q.2 ↔ 'v' ∈ q.2)) := by decide +kernel
  obtain ⟨a1, a2, a3, a4, a5⟩ := ax _ hab hx
  have ea : ∀ c, coords a (moved i0 j0 c) = coords a c := fun c => by
    unfold coords
    refine List.flatMap_congr fun ch hch => ?_
    have : ch ≠ 'x' := fun e => a1 (e ▸ hch)
    simp [coord1, moved, this]
  have fin' : ∀ {x y : Num} {u s u' s' : ℝ} (c : Cell), y = (if s = 0 then .nan else .fin (u / s / (if density then g.volOf a (moved i0 j0 c) else 1))) →
      x = (if s' = 0 then .nan else .fin (u' / s' / (if density then (g.window i0 j0 nx ny).volOf a c else 1))) → ∀ r : ℝ, 0 < r →
      u' = r * u → s' = r * s → x = y := fun {x y u s u' s'} c e1 e2 r hr hu hs => by
    rw [e1, e2, hu, hs, window_volOf, mul_div_mul_left _ _ hr.ne']
    exact if_congr (by simp [hr.ne']) rfl rfl
  by_cases ho : (a, b) ∈ [(['x'],['t']), (['v'],['t','x']), (['z'],['t','x'])]
  · simp only [List.mem_cons, Prod.mk.injEq, List.not_mem_nil, or_false] at ho
    cases lw
    · obtain ⟨-, ⟨q2, j1, j2, j3⟩, ⟨q3, k1, k2, k3⟩⟩ := C32_ingredients h density
      obtain ⟨-, ⟨q2', j1', j2', j3'⟩, ⟨q3', k1', k2', k3'⟩⟩ := C32_ingredients h' density
      rcases ho with ⟨rfl, rfl⟩ | ⟨rfl, rfl⟩ | ⟨rfl, rfl⟩
      · simp at hx
      · exact ⟨q2, q2', j1, j1', j2, j2', fun c hc => (j3' c hc).trans (j3 _ (moved_has hi hj hc)).symm⟩
      · exact ⟨q3, q3', k1, k1', k2, k2', fun c hc => (k3' c hc).trans (k3 _ (moved_has hi hj hc)).symm⟩
    · obtain ⟨-, -, ⟨q3, k1, k2, k3⟩⟩ := C32_light_ingredients h density hl
      obtain ⟨-, -, ⟨q3', k1', k2', k3'⟩⟩ := C32_light_ingredients h' density hl'
      rcases ho with ⟨rfl, rfl⟩ | ⟨rfl, rfl⟩ | ⟨rfl, rfl⟩
      · simp at hx
      · simp at hv
      · refine ⟨q3, q3', k1, k1', k2, k2', fun c hc => fin' c (k3 _ (moved_has hi hj hc)) (k3' c hc) _ (rate_pos h h' hl hl' hκ true ['t','x']) ?_
          (window_marginal h h' hl hl' hκ hi hj true (by decide) (by decide) hc)⟩
        rw [window_marginal h h' hl hl' hκ hi hj true (by decide) (by decide) hc, rate_same (w' := ['t','x']) (Or.inr (by decide))]
  · obtain ⟨q, h1, h2, h3⟩ := C32_conditionals h density lw (fun _ => hl) a b hab ho
    obtain ⟨q', h1', h2', h3'⟩ := C32_conditionals h' density lw (fun _ => hl') a b hab ho
    refine ⟨q, q', h1, h1', h2, h2', fun c hc => fin' c (h3 _ (moved_has hi hj hc)) (h3' c hc) _ (rate_pos h h' hl hl' hκ lw b) ?_
      (window_marginal h h' hl hl' hκ hi hj lw (List.mem_cons_of_mem _ a2) hx hc)⟩
    rw [window_marginal h h' hl hl' hκ hi hj lw (List.mem_cons_of_mem _ a3) a4 hc, rate_same (w' := b) (hv.imp_right a5)]

omit h h' hl hl' hκ hi hj in
theorem ybar_window {sp : Spectra} {S : ℕ → ℕ → ℕ → ℝ} {n : ℕ} (k i j : ℕ) : Param.ybarOf (g.window i0 j0 nx ny) (m.window κ i0 j0) sp S n n k i j =
    κ * Param.ybarOf g m sp S n n k (i0 + i) (j0 + j) := by
  unfold Param.ybarOf Param.ybarAt
  rw [← irfft_unit]
  refine congrArg (fun X => Fft.irfft n X k) (funext fun w => ?_)
  unfold Param.spaxelFT
  simp only [window_probTXZ, Complex.ofReal_mul, Finset.mul_sum]
  exact Finset.sum_congr rfl fun _ _ => Finset.sum_congr rfl fun _ _ => mul_assoc _ _ _

theorem ParamIs.sameInField (hf : p'.f2 = p.f2) : SameInField p p' g i0 j0 nx ny := by
  have sh : (m.pop g).Shines g L := by
    unfold Pop.Shines Pop.lightOf
    rw [if_neg (by decide), ingr_stars]
    exact hl
  have sh' : ((m.window κ i0 j0).pop (g.window i0 j0 nx ny)).Shines (g.window i0 j0 nx ny) L := by
    unfold Pop.Shines Pop.lightOf
    rw [if_neg (by decide), ingr_stars]
    exact hl'
  have at' := fun (e : p.f2 = 1) lw w => h'.popAt (hf.trans e) (lw := lw) (fun _ => sh') w
  have atp := fun (e : p.f2 = 1) lw w => h.popAt e (lw := lw) (fun _ => sh) w
  have ne : ∀ {lw v w c}, ValidPair v w → (g.window i0 j0 nx ny).Has c → Populated p lw w (moved i0 j0 c) → (m.pop g).amount g L lw w (moved i0 j0 c) ≠ 0 :=
    fun hv hc hp => marginal_amount _ _ _ (hp.ne h hl (valid_conditioners hv) (moved_has hi hj hc))
  have ne' : ∀ {lw v w c}, 'x' ∈ w → ValidPair v w → (g.window i0 j0 nx ny).Has c → Populated p lw w (moved i0 j0 c) →
      ((m.window κ i0 j0).pop (g.window i0 j0 nx ny)).amount (g.window i0 j0 nx ny) L lw w c ≠ 0 := fun hx hv hc hp => by
    rw [window_amount hi hj (valid_conditioners hv) hx hc]
    exact mul_ne_zero hκ.ne' (ne hv hc hp)
  have three : ∀ {q : Char}, q ∈ ['t','v','z'] → q ∈ ['t','v','x','y','z'] ∧ varOf q = [q] ∧ compIdx q = [] ∧ compShape [q] = [] := by
    decide +kernel
  have two : ∀ {a a' : Char} {w : PyStr}, 'x' ∈ w → ValidPair [a, a'] w → (a ∈ ['t','v','z'] ∧ a' ∈ ['t','v','z']) := fun hx hv => by
    have : ∀ q ∈ conditionals, 'x' ∈ q.2 → ∀ u ∈ q.1, u ∈ ['t','v','z'] := by decide +kernel
    rcases hv with ⟨rfl, -⟩ | hab
    · simp at hx
    · exact ⟨this _ hab hx _ (by simp), this _ hab hx _ (by simp)⟩
  have rep : ∀ {q : Char}, q ∈ ['t','v','z'] → q ∈ PyStr.replaceX [q] := by decide +kernel
  refine ⟨fun lw => ?_, fun density lw a b hab hx hv => field_cond h h' hl hl' hκ hi hj density lw hab hx hv, fun density => ?_, fun e lw w hx q hq hv => ?_,
    fun e lw w j hx q hq hv => ?_, fun e lw w a a' hx ha hv => ?_, fun e lw w a a' hx ha hv => ?_, fun lw w j hj1 hx q hq hqv hv => ?_, ?_⟩
  · obtain ⟨X, φ, x1, x2, x3, x4⟩ := window_fraction h h' hl hl' hκ hi hj lw
    refine ⟨X, φ, x1, x2, x3, fun density w hw hx hv => ?_⟩
    obtain ⟨q, h1, h2, h3⟩ := C32_marginals h density lw (fun _ => hl) w hw
    obtain ⟨q', h1', h2', h3'⟩ := C32_marginals h' density lw (fun _ => hl') w hw
    refine ⟨q, q', h1, h1', h2, h2', fun c hc => ⟨_, h3 _ (moved_has hi hj hc), ?_⟩⟩
    rw [h3' c hc, window_marginal h h' hl hl' hκ hi hj lw (List.mem_cons_of_mem _ hw) hx hc, mul_div_assoc, x4 w hv, window_volOf]
  · obtain ⟨q, h1, h2, h3⟩ := C32_marginals h density false (by simp) ['t'] (by decide)
    obtain ⟨q', h1', h2', h3'⟩ := C32_marginals h' density false (by simp) ['t'] (by decide)
    refine ⟨q, q', h1, h1', h2, h2', fun t ht => ?_⟩
    have c1 : g.Has ⟨t, 0, 0, 0, 0⟩ := ⟨ht, h.proper.nv, h.proper.nx, h.proper.ny, h.proper.nz⟩
    have c2 : (g.window i0 j0 nx ny).Has ⟨t, 0, 0, 0, 0⟩ := ⟨ht, h'.proper.nv, h'.proper.nx, h'.proper.ny, h'.proper.nz⟩
    have mt : ∀ {p : Param} {g : Grid} {m : Ingredients}, ParamIs p g m L → ∀ {c}, g.Has c → m.marginal g L false ['t'] c = m.probT g c := fun h c hc => by
      rw [← ingr_marginal h, Pop.marginal, h.amount_t hc]; simp
    refine (h3' _ c2).trans (Eq.trans ?_ (h3 _ c1).symm)
    rw [mt h' c2, mt h c1]; rfl
  · obtain ⟨t1, t2, t3, t4⟩ := three hq
    obtain ⟨k1, k2, -⟩ := quantity_facts t1
    rw [t2] at k1 k2
    obtain ⟨M, F, e1, i, u⟩ := (atp e lw w).mean _ hv k1
    obtain ⟨M', F', e1', i', u'⟩ := (at' e lw w).mean _ hv k1
    refine ⟨M, M', e1, e1', i.1.trans (by rw [t4]; rfl), i'.1.trans (by rw [t4]; rfl), fun c hc hp => ?_⟩
    have hd := moved_has hi hj hc
    have w1 := (i.2 q k2 _ hd).trans (u q k2 _ hd (ne hv hc hp))
    have w2 := (i'.2 q k2 c hc).trans (u' q k2 c hc (ne' hx hv hc hp))
    rw [t3, List.nil_append] at w1 w2
    rw [window_mean hi hj (valid_conditioners hv) hx hc hκ] at w2
    exact ⟨_, w1, w2⟩
  · obtain ⟨t1, t2, t3, t4⟩ := three hq
    obtain ⟨k1, k2, -⟩ := quantity_facts t1
    rw [t2] at k1 k2
    obtain ⟨M, F, e1, i, u⟩ := (atp e lw w).central _ hv k1 trivial j
    obtain ⟨M', F', e1', i', u'⟩ := (at' e lw w).central _ hv k1 trivial j
    refine ⟨M, M', e1, e1', i.1.trans (by rw [t4]; rfl), i'.1.trans (by rw [t4]; rfl), fun c hc hp => ?_⟩
    have hd := moved_has hi hj hc
    have w1 := (i.2 q k2 _ hd).trans (u q k2 _ hd (ne hv hc hp))
    have w2 := (i'.2 q k2 c hc).trans (u' q k2 c hc (ne' hx hv hc hp))
    rw [t3, List.nil_append] at w1 w2
    rw [window_central hi hj (valid_conditioners hv) hx hc hκ] at w2
    exact ⟨_, w1, w2⟩
  · obtain ⟨m1, m2⟩ := two hx hv
    obtain ⟨-, -, t3, t4⟩ := three m1
    obtain ⟨-, -, t3', t4'⟩ := three m2
    obtain ⟨r, r1, r2, r3⟩ := (atp e lw w).covariance hv
    obtain ⟨r', r1', r2', r3'⟩ := (at' e lw w).covariance hv
    refine ⟨r, r', r1, r1', r2.trans (by rw [t4, t4']; rfl), r2'.trans (by rw [t4, t4']; rfl), fun c hc hp => ?_⟩
    have hd := moved_has hi hj hc
    have w1 := r3 a (rep m1) a' (rep m2) _ hd (ne hv hc hp)
    have w2 := r3' a (rep m1) a' (rep m2) c hc (ne' hx hv hc hp)
    rw [t3, t3'] at w1 w2
    rw [window_givenCov hi hj (valid_conditioners hv) hx hc hκ ha] at w2
    exact Eq.trans w2 w1.symm
  · obtain ⟨m1, m2⟩ := two hx hv
    obtain ⟨-, -, t3, t4⟩ := three m1
    obtain ⟨-, -, t3', t4'⟩ := three m2
    obtain ⟨r, r1, r2, r3⟩ := (atp e lw w).correlation hv trivial trivial
    obtain ⟨r', r1', r2', r3'⟩ := (at' e lw w).correlation hv trivial trivial
    refine ⟨r, r', r1, r1', r2.trans (by rw [t4, t4']; rfl), r2'.trans (by rw [t4, t4']; rfl), fun c hc hp => ?_⟩
    have hd := moved_has hi hj hc
    have w1 := r3 a (rep m1) a' (rep m2) _ hd (ne hv hc hp)
    have w2 := r3' a (rep m1) a' (rep m2) c hc (ne' hx hv hc hp)
    rw [t3, t3'] at w1 w2
    unfold Pop.variance at w2
    rw [window_givenCov hi hj (valid_conditioners hv) hx hc hκ ha, window_central hi hj (valid_conditioners hv) hx hc hκ,
      window_central hi hj (valid_conditioners hv) hx hc hκ] at w2
    exact Eq.trans w2 w1.symm
  · obtain ⟨A, r, e1, e2, e3, e4⟩ := C68_l_moments_of_distribution (lw := lw) h (fun _ => sh) q hq w hv j hj1
    obtain ⟨A', r', e1', e2', e3', e4'⟩ := C68_l_moments_of_distribution (lw := lw) h' (fun _ => sh') q hq w hv j hj1
    refine ⟨A, r, r', e1, e2, e2', e3, e3', fun c hc hA => ?_⟩
    have hd := moved_has hi hj hc
    have hab : ([q], w) ∈ conditionals := by
      rcases hv with ⟨rfl, -⟩ | hab
      · simp at hx
      · exact hab
    have hw0 : w ≠ [] := by rintro rfl; simp at hx
    obtain ⟨B, B', b1, b1', -, -, b3⟩ := field_cond h h' hl hl' hκ hi hj false lw hab hx (hqv.imp_right fun n => by simpa using Ne.symm n)
    have d1 : distStr [q] w = condStr [q] w := by rw [distStr, if_neg hw0]
    rw [d1] at e1'
    have eA : getP p.self (condStr [q] w) false lw = .ok A := by rw [← d1]; exact e1
    obtain rfl : _ = A := Except.ok.inj (b1.symm.trans eA)
    obtain rfl : _ = A' := Except.ok.inj (b1'.symm.trans e1')
    have hb : (g.window i0 j0 nx ny).bins q = g.bins q := by
      simp only [List.mem_cons, List.not_mem_nil, or_false] at hq
      rcases hq with rfl | rfl | rfl <;> rfl
    have hE : (g.window i0 j0 nx ny).edge q = g.edge q := by
      simp only [List.mem_cons, List.not_mem_nil, or_false] at hq
      rcases hq with rfl | rfl | rfl <;> rfl
    have all : ∀ i, ∃ u : ℝ, i < g.bins q → B.get (i :: coords w (moved i0 j0 c)) = .fin u ∧ B'.get (i :: coords w c) = .fin u := fun i => by
      by_cases hi' : i < g.bins q
      · obtain ⟨d, hd', d2, d3⟩ := cell_at (g := g.window i0 j0 nx ny) hv hq hc (hb ▸ hi')
        have k := b3 d hd'
        have d4 : coords w (moved i0 j0 d) = coords w (moved i0 j0 c) := (coords_moved (valid_conditioners hv) c d).2 d3
        have d5 : coords [q] (moved i0 j0 d) = [i] := by
          rw [← d2]
          simp only [List.mem_cons, List.not_mem_nil, or_false] at hq
          rcases hq with rfl | rfl | rfl <;> simp [coords, coord1, moved]
        rw [d2, d3, d4, d5, List.singleton_append, List.singleton_append] at k
        obtain ⟨u, hu⟩ := bins_fin h hl hv e1 (moved_has hi hj hd') (by rw [d4, d5]; exact hA i hi')
        rw [d4, d5, List.singleton_append] at hu
        exact ⟨u, fun _ => ⟨hu, k.trans hu⟩⟩
      · exact ⟨0, fun h => absurd h hi'⟩
    choose π hπ using all
    have := e4' c hc π fun i hi => (hπ i (by rwa [hb] at hi)).2
    rw [hb, hE] at this
    exact this.trans (e4 _ hd π fun i hi => (hπ i hi).1).symm
  · obtain ⟨X, φ, x1, x2, x3, x4⟩ := window_fraction h h' hl hl' hκ hi hj false
    refine ⟨X, φ, x1, x2, x3, fun sp S n hn hS batch hb => ?_⟩
    have hS' : SpectraAre sp (g.window i0 j0 nx ny) S n n := ⟨hS.len, hS.nFft, hS.dims, hS.shape, hS.get⟩
    obtain ⟨⟨y1, a1, b1⟩, e2, e3, -⟩ := Param.evaluateYbar_is h hn hS
    obtain ⟨⟨y1', a1', b1'⟩, e2', e3', -⟩ := Param.evaluateYbar_is h' hn hS'
    obtain ⟨y2, a2, b2⟩ := e2 rfl
    obtain ⟨y3, a3, b3⟩ := e3 rfl
    obtain ⟨y2', a2', b2'⟩ := e2' rfl
    obtain ⟨y3', a3', b3'⟩ := e3' rfl
    have eq : ∀ k i j, Param.ybarOf (g.window i0 j0 nx ny) (m.window κ i0 j0) sp S n n k i j = Param.ybarOf g m sp S n n k (i0 + i) (j0 + j) / φ := fun k i j => by
      rw [← x4 [] (Or.inl rfl)]
      exact ybar_window k i j
    have go : ∀ {y y' : Arr Num}, Is3 y n g.nx g.ny (fun w i j => .fin (Param.ybarOf g m sp S n n w i j)) →
        Is3 y' n nx ny (fun w i j => .fin (Param.ybarOf (g.window i0 j0 nx ny) (m.window κ i0 j0) sp S n n w i j)) →
        y.shape = [n, g.nx, g.ny] ∧ y'.shape = [n, nx, ny] ∧
        ∀ w < n, ∀ i < nx, ∀ j < ny, ∃ u : ℝ, y.get [w, i0 + i, j0 + j] = .fin u ∧ y'.get [w, i, j] = .fin (u / φ) := fun h1 h2 =>
      ⟨h1.1, h2.1, fun w hw i hi' j hj' => ⟨_, h1.2 w hw (i0 + i) (by omega) (j0 + j) (by omega), (h2.2 w hw i hi' j hj').trans (congrArg Num.fin (eq w i j))⟩⟩
    simp only [List.mem_cons, List.not_mem_nil, or_false] at hb
    rcases hb with rfl | rfl | rfl
    · exact ⟨y1, y1', a1, a1', go b1 b1'⟩
    · exact ⟨y2, y2', a2, a2', go b2 b2'⟩
    · exact ⟨y3, y3', a3, a3', go b3 b3'⟩

end

/-! ### Lemmas: histories -/

/-- The stored arrays are those of the larger cube in the pixels of both; densities of position are larger by one factor. -/
structure InField (p p' : Param) (g : Grid) (i0 j0 nx ny : ℕ) : Prop where
  ssps : p'.cube.ssps = p.cube.ssps
  f2 : p'.f2 = p.f2
  zGrid : p'.zGrid = p.zGrid
  tPars : p'.tPars = p.tPars
  logPt : p'.logPt = p.logPt
  space : ∀ A, p.logPxt = some A → ∃ (A' : Arr Num) (q : Cell → ℝ) (κ : ℝ), p'.logPxt = some A' ∧ 0 < κ ∧ (∀ c, g.Has c → 0 < q c) ∧
    MArr g (['x','y','t'].map some) A (fun c => Num.lg (q c)) ∧
    MArr (g.window i0 j0 nx ny) (['x','y','t'].map some) A' (fun c => Num.lg (κ * q (moved i0 j0 c)))
  metal : ∀ A, p.logPztx = some A → ∃ (A' : Arr Num) (F : Cell → Num), p'.logPztx = some A' ∧
    MArr g (['z','t','x','y'].map some) A F ∧ MArr (g.window i0 j0 nx ny) (['z','t','x','y'].map some) A' (fun c => F (moved i0 j0 c))
  mean : ∀ A, p.muV = some A → ∃ (A' : Arr Num) (F : Cell → Num), p'.muV = some A' ∧
    MArr g (['t','x','y'].map some) A F ∧ MArr (g.window i0 j0 nx ny) (['t','x','y'].map some) A' (fun c => F (moved i0 j0 c))
  disp : ∀ A, p.sigV = some A → ∃ (A' : Arr Num) (F : Cell → Num), p'.sigV = some A' ∧
    MArr g (['t','x','y'].map some) A F ∧ MArr (g.window i0 j0 nx ny) (['t','x','y'].map some) A' (fun c => F (moved i0 j0 c))

theorem InField.setPt (hU : InField p p' g i0 j0 nx ny) {lmd phi : ℝ} {q : ℝ × ℝ} {p1 p1' : Param} (hr : p.setPt lmd phi q = .ok p1)
    (hr' : p'.setPt lmd phi q = .ok p1') : InField p1 p1' g i0 j0 nx ny := by
  obtain ⟨e1, e2⟩ := setPt_units hU.ssps hr
  obtain rfl : _ = p1' := Except.ok.inj (e2.symm.trans hr')
  rw [e1]
  exact ⟨hU.ssps, hU.f2, hU.zGrid, rfl, rfl, hU.space, hU.metal, hU.mean, hU.disp⟩

theorem streamW_window (theta muR : ℝ × ℝ) (sig : ℝ) (n : ℕ) (c : Cell) : streamW (g.window i0 j0 nx ny) center rotation theta muR sig n c =
    streamW g center rotation theta muR sig n (moved i0 j0 c) := rfl

theorem InField.stream {s s' s1 s1' : Stream} (h : SoundStream s g f2 center rotation) (h' : SoundStream s' (g.window i0 j0 nx ny) f2 center rotation)
    (hU : InField s.base s'.base g i0 j0 nx ny) (hθ : s'.thetaLims = s.thetaLims) (hg : g.Proper) (hg' : (g.window i0 j0 nx ny).Proper)
    (c : StreamCall) (hv : c.Valid) (ht : s.base.logPxt ≠ none ∨ c.field ≠ .mean) (hr : c.run s = .ok s1) (hr' : c.run s' = .ok s1') :
    InField s1.base s1'.base g i0 j0 nx ny ∧ s1'.thetaLims = s1.thetaLims := by
  cases c with
  | setPt lmd phi q =>
    obtain ⟨p1, j1, j2⟩ := bind_ok hr
    obtain ⟨p1', j1', j2'⟩ := bind_ok hr'
    cases j2
    cases j2'
    exact ⟨hU.setPt j1 j1', hθ⟩
  | setPxt theta muR sig n =>
    obtain ⟨v1, v2, v3, v4, v5⟩ := hv
    obtain ⟨A, k1, k2⟩ := stream_setPxt h.base.built hg (muR := muR) (le_min v1.1 v2.1) (max_le v1.2 v2.2) v3 v4 v5
    obtain ⟨A', k1', k2'⟩ := stream_setPxt h'.base.built hg' (muR := muR) (le_min v1.1 v2.1) (max_le v1.2 v2.2) v3 v4 v5
    obtain rfl : _ = s1 := Except.ok.inj (k1.symm.trans hr)
    obtain rfl : _ = s1' := Except.ok.inj (k1'.symm.trans hr')
    refine ⟨⟨hU.ssps, hU.f2, hU.zGrid, hU.tPars, hU.logPt, fun B hB => ?_, hU.metal, hU.mean, hU.disp⟩, rfl⟩
    cases hB
    have hT := streamTotal_pos (center := center) (rotation := rotation) (theta := theta) (muR := muR) hg v4 v5
    have hT' := streamTotal_pos (center := center) (rotation := rotation) (theta := theta) (muR := muR) hg' v4 v5
    refine ⟨A', _, streamTotal g center rotation theta muR sig n / streamTotal (g.window i0 j0 nx ny) center rotation theta muR sig n, rfl,
      div_pos hT hT', fun c hc => ?_, k2, k2'.congr fun c hc => ?_⟩
    · exact div_pos (div_pos (streamW_pos hg v4 v5 hc.2.2.1 hc.2.2.2.1) hT)
        (mul_pos (sub_pos.2 (hg.x _ hc.2.2.1)) (sub_pos.2 (hg.y _ hc.2.2.2.1)))
    · rw [streamW_window]
      show Num.lg (_ / _ / (width g.x (i0 + c.x) * width g.y (j0 + c.y))) = Num.lg (_ * (_ / _ / (width g.x (i0 + c.x) * width g.y (j0 + c.y))))
      congr 1
      field_simp
  | setTDep τ =>
    obtain ⟨B, k1, k2⟩ := stream_setTDep h.base.built hg τ
    obtain ⟨B', k1', k2'⟩ := stream_setTDep h'.base.built hg' τ
    obtain rfl : _ = s1 := Except.ok.inj (k1.symm.trans hr)
    obtain rfl : _ = s1' := Except.ok.inj (k1'.symm.trans hr')
    refine ⟨⟨hU.ssps, hU.f2, hU.zGrid, hU.tPars, hU.logPt, hU.space, fun B hB => ?_, hU.mean, hU.disp⟩, hθ⟩
    cases hB
    refine ⟨B', _, rfl, k2, k2'.congr fun c hc => ?_⟩
    rw [hU.zGrid]; rfl
  | setMuV lims =>
    have h1 : s.base.logPxt ≠ none := by simpa [StreamCall.field] using ht
    obtain ⟨θ, e⟩ := Option.ne_none_iff_exists'.1 fun e => h1 (h.space.1 e)
    obtain ⟨A, k1, k2⟩ := stream_setMuV h.base.built (lims := lims) e (h.theta θ e)
    obtain ⟨A', k1', k2'⟩ := stream_setMuV h'.base.built (lims := lims) (hθ.trans e) (h.theta θ e)
    obtain rfl : _ = s1 := Except.ok.inj (k1.symm.trans hr)
    obtain rfl : _ = s1' := Except.ok.inj (k1'.symm.trans hr')
    refine ⟨⟨hU.ssps, hU.f2, hU.zGrid, hU.tPars, hU.logPt, hU.space, hU.metal, fun B hB => ?_, hU.disp⟩, hθ⟩
    cases hB
    exact ⟨A', _, rfl, k2, k2'⟩
  | setSigV sigV =>
    obtain ⟨A, k1, k2⟩ := stream_setSigV h.base.built sigV
    obtain ⟨A', k1', k2'⟩ := stream_setSigV h'.base.built sigV
    obtain rfl : _ = s1 := Except.ok.inj (k1.symm.trans hr)
    obtain rfl : _ = s1' := Except.ok.inj (k1'.symm.trans hr')
    refine ⟨⟨hU.ssps, hU.f2, hU.zGrid, hU.tPars, hU.logPt, hU.space, hU.metal, hU.mean, fun B hB => ?_⟩, hθ⟩
    cases hB
    exact ⟨A', _, rfl, k2, k2'⟩

theorem InField.streamCalls (hg : g.Proper) (hg' : (g.window i0 j0 nx ny).Proper) :
    ∀ (ks : List StreamCall) (s s' s1 : Stream), SoundStream s g f2 center rotation → SoundStream s' (g.window i0 j0 nx ny) f2 center rotation →
      InField s.base s'.base g i0 j0 nx ny → s'.thetaLims = s.thetaLims → (∀ c ∈ ks, c.Valid) → runAll StreamCall.run s ks = .ok s1 →
      ∃ s1', runAll StreamCall.run s' ks = .ok s1' ∧ SoundStream s1 g f2 center rotation ∧ SoundStream s1' (g.window i0 j0 nx ny) f2 center rotation ∧
        InField s1.base s1'.base g i0 j0 nx ny ∧ s1.base.cube = s.base.cube ∧ s1'.base.cube = s'.base.cube
  | [], s, s', s1, h, h', hU, _, _, hr => by cases hr; exact ⟨s', rfl, h, h', hU, rfl, rfl⟩
  | c :: ks, s, s', s1, h, h', hU, hθ, hv, hr => by
    have hc := hv c List.mem_cons_self
    have : (StreamCall.run s c >>= fun q => runAll StreamCall.run q ks) = .ok s1 := hr
    by_cases ht : s.base.logPxt ≠ none ∨ c.field ≠ .mean
    · obtain ⟨s2, k1, k2⟩ := h.step hg c hc ht
      obtain ⟨s2', k1', k2'⟩ := h'.step hg' c hc (by
        refine ht.imp (fun h1 => ?_) id
        obtain ⟨A, e⟩ := Option.ne_none_iff_exists'.1 h1
        obtain ⟨A', -, -, e', -⟩ := hU.space A e
        rw [e']; simp)
      rw [k1] at this
      obtain ⟨f1, f2⟩ := InField.stream h h' hU hθ hg hg' c hc ht k1 k1'
      obtain ⟨s1', e1, e2, e3, e4, e5, e6⟩ := InField.streamCalls hg hg' ks s2 s2' s1 k2 k2' f1 f2
        (fun c' hc' => hv c' (List.mem_cons_of_mem _ hc')) this
      refine ⟨s1', ?_, e2, e3, e4, e5.trans (stream_writes k1).1.cube, e6.trans (stream_writes k1').1.cube⟩
      show (c.run s' >>= fun q => runAll StreamCall.run q ks) = .ok s1'
      rw [k1']; exact e1
    · exfalso
      push Not at ht
      rcases stream_history hg [c] s h (by simpa using hc) with ⟨s2, j1, -⟩ | ⟨j1, -⟩
      · cases c with
        | setMuV lims =>
          have e : s.thetaLims = none := h.space.2 ht.1
          simp only [StreamCall.run, Stream.setMuV, e] at this
          obtain ⟨_, j, _⟩ := bind_ok this
          obtain ⟨_, _, j⟩ := bind_ok j
          obtain ⟨_, j, _⟩ := bind_ok j
          cases j
        | _ => simp [StreamCall.field] at ht
      · cases hq : StreamCall.run s c with
        | error e => rw [hq] at this; cases this
        | ok s2 => simp only [runAll, hq, Py.ok_bind] at j1; cases j1

theorem InField.paramIs (hU : InField p p' g i0 j0 nx ny) (h : ParamIs p g m L) {m' : Ingredients} (h' : ParamIs p' (g.window i0 j0 nx ny) m' L)
    (hi : i0 + nx ≤ g.nx) (hj : j0 + ny ≤ g.ny) (hpos : ∀ t < g.nt, ∀ x < g.nx, ∀ y < g.ny, 0 < m.px t x y)
    (hpos' : ∀ t < g.nt, ∀ x < nx, ∀ y < ny, 0 < m'.px t x y) : ∃ κ, 0 < κ ∧ ParamIs p' (g.window i0 j0 nx ny) (m.window κ i0 j0) L := by
  obtain ⟨A, eA, hA⟩ := h.logPxt
  obtain ⟨A', q, κ, e', hκ, hq, k1, k2⟩ := hU.space A eA
  obtain ⟨A'', eA', hA'⟩ := h'.logPxt
  obtain rfl : A' = A'' := Option.some.inj (e'.symm.trans eA')
  have hA := larr_iff.1 ((isArr_cond_iff (by decide) (by decide)).1 hA)
  have hA' := larr_iff.1 ((isArr_cond_iff (by decide) (by decide)).1 hA')
  have i4 : ∀ c, g.Has c → q c = m.px c.t c.x c.y := fun c hc =>
    lg_injective (hq c hc) (hpos c.t hc.1 c.x hc.2.2.1 c.y hc.2.2.2.1) ((k1.2 c hc).symm.trans (hA.2 c hc))
  have i5 : ∀ c, (g.window i0 j0 nx ny).Has c → m'.px c.t c.x c.y = κ * m.px c.t (i0 + c.x) (j0 + c.y) := fun c hc => by
    have hd := moved_has hi hj hc
    have := lg_injective (mul_pos hκ (hq _ hd)) (hpos' c.t hc.1 c.x hc.2.2.1 c.y hc.2.2.2.1) ((k2.2 c hc).symm.trans (hA'.2 c hc))
    rw [← this, i4 _ hd]; rfl
  refine ⟨κ, hκ, h'.proper, h'.cubeIs, ⟨h.norm.pt, fun t x y => mul_nonneg hκ.le (h.norm.px _ _ _), fun t x y z => h.norm.pz _ _ _ _,
    fun t x y => h.norm.sig _ _ _, h.norm.sumT, fun t ht => ?_, fun t ht x hx y hy => ?_⟩, ?_, ?_, ?_, ?_, ?_, h'.light, h.lightNonneg⟩
  · refine Eq.trans ?_ (h'.norm.sumX t ht)
    refine Finset.sum_congr rfl fun x _ => Finset.sum_congr rfl fun y _ => ?_
    rw [i5 ⟨t, 0, x, y, 0⟩ ⟨ht, h.proper.nv, x.2, y.2, h.proper.nz⟩]; rfl
  · have hx' : x < nx := hx
    have hy' : y < ny := hy
    exact h.norm.sumZ t ht (i0 + x) (by omega) (j0 + y) (by omega)
  · obtain ⟨B, e, hB⟩ := h.logPt
    exact ⟨B, hU.logPt.trans e, hB.1, fun c hc => hB.2 (moved i0 j0 c) (moved_has hi hj hc)⟩
  · refine ⟨A', e', (isArr_cond_iff (by decide) (by decide)).2 (larr_iff.2 (MArr.congr k2 fun c hc => ?_))⟩
    rw [i4 _ (moved_has hi hj hc)]; rfl
  · obtain ⟨A, e, hA⟩ := h.logPztx
    obtain ⟨A', q, e', k1, k2⟩ := hU.metal A e
    refine ⟨A', e', ?_⟩
    have hA' := larr_iff.1 ((isArr_cond_iff (by decide) (by decide)).1 hA)
    refine (isArr_cond_iff (by decide) (by decide)).2 (larr_iff.2 (MArr.congr k2 fun c hc => ?_))
    exact (k1.2 _ (moved_has hi hj hc)).symm.trans (hA'.2 _ (moved_has hi hj hc))
  · obtain ⟨A, e, hA⟩ := h.muV
    obtain ⟨A', q, e', k1, k2⟩ := hU.mean A e
    refine ⟨A', e', ?_⟩
    refine MArr.isArr (w := ['t','x']) (by decide) (MArr.congr k2 fun c hc => ?_)
    exact (k1.2 _ (moved_has hi hj hc)).symm.trans (hA.2 _ (moved_has hi hj hc))
  · obtain ⟨A, e, hA⟩ := h.sigV
    obtain ⟨A', q, e', k1, k2⟩ := hU.disp A e
    refine ⟨A', e', ?_⟩
    refine MArr.isArr (w := ['t','x']) (by decide) (MArr.congr k2 fun c hc => ?_)
    exact (k1.2 _ (moved_has hi hj hc)).symm.trans (hA.2 _ (moved_has hi hj hc))

theorem init_field {cube cube' : IFUCube} (hc : CubeIs cube g) (hc' : CubeIs cube' (g.window i0 j0 nx ny)) (hs : cube'.ssps = cube.ssps) (hg : g.Proper)
    (hg' : (g.window i0 j0 nx ny).Proper) (f2 : ℝ) (center : ℝ × ℝ) (rotation : ℝ) : ∃ p p', Param.init f2 cube center rotation = .ok p ∧ p.cube = cube ∧
      Sound p g f2 center rotation ∧ Param.init f2 cube' center rotation = .ok p' ∧ p'.cube = cube' ∧ Sound p' (g.window i0 j0 nx ny) f2 center rotation ∧
      InField p p' g i0 j0 nx ny ∧ (∀ f : Field, ∀ a ∈ f.get p, a = none) ∧ ∀ f : Field, ∀ a ∈ f.get p', a = none := by
  obtain ⟨p0, k1, k2, k3, k4⟩ := init_sound hc hg f2 center rotation
  obtain ⟨p0', k1', k2', k3', k4'⟩ := init_sound hc' hg' f2 center rotation
  have none_of : ∀ f : Field, ∀ a ∈ f.get p0, ∀ A, a ≠ some A := fun f a ha A e => by rw [k4 f a ha] at e; cases e
  have l : p0.logPt = none := k4 .age _ (by simp [Field.get])
  have l' : p0'.logPt = none := k4' .age _ (by simp [Field.get])
  refine ⟨p0, p0', k1, k2, k3, k1', k2', k3', ⟨by rw [k2', k2, hs], by rw [k3'.built.f2, k3.built.f2], ?_, by rw [k3'.unaged l', k3.unaged l],
    by rw [l, l'], fun A hA => absurd hA (none_of .space _ (by simp [Field.get]) A), fun A hA => absurd hA (none_of .metal _ (by simp [Field.get]) A),
    fun A hA => absurd hA (none_of .mean _ (by simp [Field.get]) A), fun A hA => absurd hA (none_of .disp _ (by simp [Field.get]) A)⟩, k4, k4'⟩
  have e1 := k3.built.zGrid
  have e2 := k3'.built.zGrid
  rw [k2] at e1
  rw [k2'] at e2
  unfold Param.zInterpGrid at e1 e2
  rw [hs] at e2
  exact Except.ok.inj (e2.symm.trans e1)

/-! ### C105 -/

/-- **C105**, streams. Make a stream with the same setter calls on a cube and on a cube with the columns `i0, …` and rows `j0, …` of its pixels only: the calls
succeed again, and the second is the first through the smaller field of view. What is missing of the property is the same for growing disks, of which it is
false (`C105_disk_wrong`). -/
theorem C105_stream_partial {cube cube' : IFUCube} (hc : CubeIs cube g) (hi : i0 + nx ≤ g.nx) (hj : j0 + ny ≤ g.ny) (hx : 0 < nx) (hy : 0 < ny)
    (hc' : CubeIs cube' (g.window i0 j0 nx ny)) (hs : cube'.ssps = cube.ssps) (hg : g.Proper)
    (hl : IsArr g ['t','z'] cube.ssps.lightWeights (fun c => .fin (L c.t c.z))) (hL : ∀ t z, 0 < L t z)
    (ks : List StreamCall) (hv : ∀ k ∈ ks, k.Valid) (hall : ∀ f : Field, ∃ k ∈ ks, k.field = f) {s : Stream}
    (hp : makeStream f2 cube center rotation ks = .ok s) :
    ∃ s', makeStream f2 cube' center rotation ks = .ok s' ∧ SameInField s.base s'.base g i0 j0 nx ny := by
  have hg' := hg.window hi hj hx hy
  obtain ⟨p0, p0', k1, k2, k3, k1', k2', k3', hU, k4, k4'⟩ := init_field hc hc' hs hg hg' f2 center rotation
  have hr : runAll StreamCall.run ⟨p0, none⟩ ks = .ok s := by
    unfold makeStream Stream.init at hp
    rwa [k1] at hp
  have n : p0.logPxt = none := k4 .space _ (by simp [Field.get])
  have n' : p0'.logPxt = none := k4' .space _ (by simp [Field.get])
  obtain ⟨s', e1, e2, e3, e4, e5, e6⟩ := InField.streamCalls (f2 := f2) (center := center) (rotation := rotation) hg hg' ks ⟨p0, none⟩ ⟨p0', none⟩ s
    ⟨k3, by simp, by simp [n]⟩ ⟨k3', by simp, by simp [n']⟩ hU rfl hv hr
  refine ⟨s', ?_, ?_⟩
  · unfold makeStream Stream.init
    rw [k1']; exact e1
  have hf : ∀ {s : Stream} {p0 : Param}, runAll StreamCall.run ⟨p0, none⟩ ks = .ok s → (∀ f : Field, ∀ a ∈ f.get p0, a = none) →
      ∀ f : Field, none ∉ f.get s.base := fun {s p0} hr k4 f => by
    rw [(set_fields (base := fun s => s.base) (fun {s s' k} h => (stream_writes h).1) ks ⟨p0, none⟩ s hr (fun f => Or.inr (k4 f)) f).1]
    exact Or.inr (hall f)
  obtain ⟨m, i1, i2, i3⟩ := e2.base.paramIs hg (by rw [e5, k2]; exact hl) (fun t z => (hL t z).le) (hf hr k4)
  obtain ⟨m', i1', i2', i3'⟩ := e3.base.paramIs hg' (L := L) (by rw [e6, k2', hs]; exact ⟨hl.1, fun c hc => hl.2 (moved i0 j0 c) (moved_has hi hj hc)⟩)
    (fun t z => (hL t z).le) (hf e1 k4')
  obtain ⟨κ, hκ, iw⟩ := e4.paramIs i1 i1' hi hj i2 i2'
  refine i1.sameInField iw (i1.shines (fun t _ z _ => hL t z) i2 i3) (iw.shines (fun t _ z _ => hL t z) (fun t ht x hx y hy => ?_)
    fun t ht x hx y hy z hz => ?_) hκ hi hj e4.f2
  · have hx' : x < nx := hx
    have hy' : y < ny := hy
    exact mul_pos hκ (i2 t ht (i0 + x) (by omega) (j0 + y) (by omega))
  · have hx' : x < nx := hx
    have hy' : y < ny := hy
    exact i3 t ht (i0 + x) (by omega) (j0 + y) (by omega) z hz

/-- What is the same of two growing disks, `p'` on some of the pixels of `p`. -/
structure DiskInField (p p' : Param) (g : Grid) (i0 j0 nx ny : ℕ) (same : Prop) : Prop where
  /-- the star formation history -/
  ages : ∀ density, ∃ q q', getP p.self ['t'] density false = .ok q ∧ getP p'.self ['t'] density false = .ok q' ∧ q.shape = [g.nt] ∧ q'.shape = [g.nt] ∧
    ∀ t < g.nt, q'.get [t] = q.get [t]
  /-- the image of the stars of an age, up to a factor -/
  image : ∃ κ : ℕ → ℝ, (∀ t < g.nt, 0 < κ t) ∧ ∀ density, ∃ q q', getP p.self (condStr ['x'] ['t']) density false = .ok q ∧
    getP p'.self (condStr ['x'] ['t']) density false = .ok q' ∧ q.shape = [g.nx, g.ny, g.nt] ∧ q'.shape = [nx, ny, g.nt] ∧
    ∀ i < nx, ∀ j < ny, ∀ t < g.nt, ∃ u : ℝ, q.get [i0 + i, j0 + j, t] = .fin u ∧ q'.get [i, j, t] = .fin (κ t * u)
  /-- mean velocities -/
  mean : ∀ lw, ∃ r r', getMean p.self (distStr ['v'] ['t','x']) lw = .ok r ∧ getMean p'.self (distStr ['v'] ['t','x']) lw = .ok r' ∧
    r.shape = [g.nt, g.nx, g.ny] ∧ r'.shape = [g.nt, nx, ny] ∧ ∀ t < g.nt, ∀ i < nx, ∀ j < ny, r'.get [t, i, j] = r.get [t, i0 + i, j0 + j]
  /-- if the fields have the same largest `|x|`: velocities and metallicities of the stars of an age in a pixel -/
  stars : same → ∀ density, ∀ a ∈ ['v','z'], ∃ q q', getP p.self (condStr [a] ['t','x']) density false = .ok q ∧
    getP p'.self (condStr [a] ['t','x']) density false = .ok q' ∧ q.shape = [g.bins a, g.nt, g.nx, g.ny] ∧ q'.shape = [g.bins a, g.nt, nx, ny] ∧
    ∀ k < g.bins a, ∀ t < g.nt, ∀ i < nx, ∀ j < ny, q'.get [k, t, i, j] = q.get [k, t, i0 + i, j0 + j]
  /-- and all the central moments of velocity -/
  central : same → p.f2 = 1 → ∀ lw (j : ℕ), ∃ r r', getCentralMoment p.self (distStr ['v'] ['t','x']) j lw = .ok r ∧
    getCentralMoment p'.self (distStr ['v'] ['t','x']) j lw = .ok r' ∧ r.shape = [g.nt, g.nx, g.ny] ∧ r'.shape = [g.nt, nx, ny] ∧
    ∀ t < g.nt, ∀ i < nx, ∀ k < ny, r'.get [t, i, k] = r.get [t, i0 + i, j0 + k]

/-- The stored arrays of a disk in the pixels of both. -/
structure InDisk (p p' : Param) (g : Grid) (i0 j0 nx ny : ℕ) (same : Prop) : Prop where
  ssps : p'.cube.ssps = p.cube.ssps
  f2 : p'.f2 = p.f2
  zGrid : p'.zGrid = p.zGrid
  tPars : p'.tPars = p.tPars
  logPt : p'.logPt = p.logPt
  space : ∀ A, p.logPxt = some A → ∃ (A' : Arr Num) (q : Cell → ℝ) (κ : ℕ → ℝ), p'.logPxt = some A' ∧ (∀ t, 0 < κ t) ∧ (∀ c, g.Has c → 0 < q c) ∧
    MArr g (['x','y','t'].map some) A (fun c => Num.lg (q c)) ∧
    MArr (g.window i0 j0 nx ny) (['x','y','t'].map some) A' (fun c => Num.lg (κ c.t * q (moved i0 j0 c)))
  metal : same → ∀ A, p.logPztx = some A → ∃ (A' : Arr Num) (F : Cell → Num), p'.logPztx = some A' ∧
    MArr g (['z','t','x','y'].map some) A F ∧ MArr (g.window i0 j0 nx ny) (['z','t','x','y'].map some) A' (fun c => F (moved i0 j0 c))
  mean : ∀ A, p.muV = some A → ∃ (A' : Arr Num) (F : Cell → Num), p'.muV = some A' ∧
    MArr g (['t','x','y'].map some) A F ∧ MArr (g.window i0 j0 nx ny) (['t','x','y'].map some) A' (fun c => F (moved i0 j0 c))
  disp : same → ∀ A, p.sigV = some A → ∃ (A' : Arr Num) (F : Cell → Num), p'.sigV = some A' ∧
    MArr g (['t','x','y'].map some) A F ∧ MArr (g.window i0 j0 nx ny) (['t','x','y'].map some) A' (fun c => F (moved i0 j0 c))

theorem maxX_unique {u u' : ℝ} (h : MaxX g center rotation u) (h' : MaxX g center rotation u') : u = u' := by
  obtain ⟨⟨c, hc, e⟩, hu⟩ := h
  obtain ⟨⟨c', hc', e'⟩, hu'⟩ := h'
  exact le_antisymm (e ▸ hu' c hc) (e' ▸ hu c' hc')

/-- Both fields have the same largest `|x|`. -/
def SameMaxX (g : Grid) (i0 j0 nx ny : ℕ) (center : ℝ × ℝ) (rotation : ℝ) : Prop :=
  ∃ u, MaxX g center rotation u ∧ MaxX (g.window i0 j0 nx ny) center rotation u

theorem InDisk.disk (hi : i0 + nx ≤ g.nx) (hj : j0 + ny ≤ g.ny) (h : Sound p g f2 center rotation) (h' : Sound p' (g.window i0 j0 nx ny) f2 center rotation)
    (hU : InDisk p p' g i0 j0 nx ny (SameMaxX g i0 j0 nx ny center rotation)) (hg : g.Proper) (hg' : (g.window i0 j0 nx ny).Proper)
    (hx : ∃ c, g.Has c ∧ frameX g center rotation c ≠ 0) (hx' : ∃ c, (g.window i0 j0 nx ny).Has c ∧ frameX (g.window i0 j0 nx ny) center rotation c ≠ 0)
    (c : DiskCall) (hv : c.Valid) (ht : p.logPt ≠ none ∨ c.field = .age ∨ c.field = .metal) {p1 p1' : Param} (hr : c.run p = .ok p1)
    (hr' : c.run p' = .ok p1') : InDisk p1 p1' g i0 j0 nx ny (SameMaxX g i0 j0 nx ny center rotation) := by
  obtain ⟨u, -, hm⟩ := h.built.amax hg
  obtain ⟨u', -, hm'⟩ := h'.built.amax hg'
  have hm0 : 0 < u := by
    obtain ⟨c, hc, hne⟩ := hx
    exact (abs_pos.2 hne).trans_le (hm.2 c hc)
  have hm0' : 0 < u' := by
    obtain ⟨c, hc, hne⟩ := hx'
    exact (abs_pos.2 hne).trans_le (hm'.2 c hc)
  have huu : SameMaxX g i0 j0 nx ny center rotation → u' = u := fun ⟨w, e1, e2⟩ => (maxX_unique hm' e2).trans (maxX_unique e1 hm)
  have hA : ∀ {s e : ℝ}, Aged p s e → Aged p' s e := fun h => ⟨hU.tPars.trans h.1, h.2⟩
  cases c with
  | setPt lmd phi q =>
    obtain ⟨e1, e2⟩ := setPt_units hU.ssps hr
    obtain rfl : _ = p1' := Except.ok.inj (e2.symm.trans hr')
    rw [e1]
    exact ⟨hU.ssps, hU.f2, hU.zGrid, rfl, rfl, hU.space, hU.metal, hU.mean, hU.disp⟩
  | setPxt q rc alpha =>
    obtain ⟨s, e, ha⟩ := h.aged (by simpa [DiskCall.field] using ht)
    obtain ⟨v1, v2, v3⟩ := hv
    obtain ⟨A, k1, k2⟩ := disk_setPxt h.built hg ha v1 v2 v3
    obtain ⟨A', k1', k2'⟩ := disk_setPxt h'.built hg' (hA ha) v1 v2 v3
    obtain rfl : _ = p1 := Except.ok.inj (k1.symm.trans hr)
    obtain rfl : _ = p1' := Except.ok.inj (k1'.symm.trans hr')
    refine ⟨hU.ssps, hU.f2, hU.zGrid, hU.tPars, hU.logPt, fun B hB => ?_, hU.metal, hU.mean, hU.disp⟩
    cases hB
    have hρp : ∀ c, 0 < coredRho g center rotation s e q rc alpha c := fun c => coredRho_pos ha.2 v2.1 v2.2 c
    have hρp' : ∀ c, 0 < coredRho (g.window i0 j0 nx ny) center rotation s e q rc alpha c := fun c => coredRho_pos ha.2 v2.1 v2.2 c
    have hT := fun c => pixTotal_pos hg hρp c
    have hT' := fun c => pixTotal_pos hg' hρp' c
    have key : ∀ (G : Grid) (ρ : Cell → ℝ) (c : Cell), (∀ c v z, ρ { c with v := v, z := z } = ρ c) → pixTotal G ρ c = pixTotal G ρ ⟨c.t, 0, 0, 0, 0⟩ :=
      fun G ρ c hρ => Finset.sum_congr rfl fun i _ => Finset.sum_congr rfl fun j _ => by rw [← hρ ⟨c.t, 0, i, j, 0⟩ c.v c.z]
    refine ⟨A', _, fun t => pixTotal g (coredRho g center rotation s e q rc alpha) ⟨t, 0, 0, 0, 0⟩ /
      pixTotal (g.window i0 j0 nx ny) (coredRho (g.window i0 j0 nx ny) center rotation s e q rc alpha) ⟨t, 0, 0, 0, 0⟩, rfl,
      fun t => div_pos (hT _) (hT' _), fun c hc => div_pos (hρp c) (hT c), k2, k2'.congr fun c hc => ?_⟩
    have e1 := key g (coredRho g center rotation s e q rc alpha) (moved i0 j0 c) fun _ _ _ => rfl
    have e2 := key (g.window i0 j0 nx ny) (coredRho (g.window i0 j0 nx ny) center rotation s e q rc alpha) c fun _ _ _ => rfl
    rw [e1, e2]
    have e3 : coredRho (g.window i0 j0 nx ny) center rotation s e q rc alpha c = coredRho g center rotation s e q rc alpha (moved i0 j0 c) := rfl
    rw [e3]
    have h1 := (hT ⟨c.t, 0, 0, 0, 0⟩).ne'
    have h2 := (hT' ⟨c.t, 0, 0, 0, 0⟩).ne'
    show Num.lg _ = Num.lg (_ * (_ / pixTotal g (coredRho g center rotation s e q rc alpha) ⟨c.t, 0, 0, 0, 0⟩))
    congr 1
    rw [div_mul_div_comm, mul_comm, mul_div_mul_right _ _ h1]
  | setTDep q alpha tIn tOut tMin tMax =>
    obtain ⟨v1, v2, v3, v4, v5, v6⟩ := hv
    obtain ⟨A, B, k1, k3, k2⟩ := disk_setTDep h.built hg v1 v2 v3 v4 v5 v6 hm hm0
    obtain ⟨A', B', k1', k3', k2'⟩ := disk_setTDep h'.built hg' v1 v2 v3 v4 v5 v6 hm' hm0'
    obtain rfl : _ = p1 := Except.ok.inj (k1.symm.trans hr)
    obtain rfl : _ = p1' := Except.ok.inj (k1'.symm.trans hr')
    refine ⟨hU.ssps, hU.f2, hU.zGrid, hU.tPars, hU.logPt, hU.space, fun hsm B hB => ?_, hU.mean, hU.disp⟩
    cases hB
    refine ⟨B', _, rfl, k2, k2'.congr fun c hc => ?_⟩
    have e : A'.get [c.x, c.y] = A.get [i0 + c.x, j0 + c.y] := by
      have hd : g.Has (moved i0 j0 c) := moved_has hi hj hc
      have j1 := k3.2 _ hd
      have j2 := k3'.2 c hc
      beta_reduce at j1 j2
      rw [huu hsm] at j2
      exact Eq.trans j2 j1.symm
    rw [e, hU.zGrid]; rfl
  | setMuV q rmax vmax =>
    obtain ⟨s, e, ha⟩ := h.aged (by simpa [DiskCall.field] using ht)
    obtain ⟨v1, v2, v3⟩ := hv
    obtain ⟨A, k1, k2⟩ := disk_setMuV h.built ha v1 v2 v3
    obtain ⟨A', k1', k2'⟩ := disk_setMuV h'.built (hA ha) v1 v2 v3
    obtain rfl : _ = p1 := Except.ok.inj (k1.symm.trans hr)
    obtain rfl : _ = p1' := Except.ok.inj (k1'.symm.trans hr')
    refine ⟨hU.ssps, hU.f2, hU.zGrid, hU.tPars, hU.logPt, hU.space, hU.metal, fun B hB => ?_, hU.disp⟩
    cases hB
    exact ⟨A', _, rfl, k2, k2'⟩
  | setSigV q alpha sIn sOut =>
    obtain ⟨s, e, ha⟩ := h.aged (by simpa [DiskCall.field] using ht)
    obtain ⟨v1, v2, v3, v4⟩ := hv
    obtain ⟨A, k1, k2⟩ := disk_setSigV h.built hg ha v1 v2 v3 v4 hm hm0
    obtain ⟨A', k1', k2'⟩ := disk_setSigV h'.built hg' (hA ha) v1 v2 v3 v4 hm' hm0'
    obtain rfl : _ = p1 := Except.ok.inj (k1.symm.trans hr)
    obtain rfl : _ = p1' := Except.ok.inj (k1'.symm.trans hr')
    refine ⟨hU.ssps, hU.f2, hU.zGrid, hU.tPars, hU.logPt, hU.space, hU.metal, hU.mean, fun hsm B hB => ?_⟩
    cases hB
    refine ⟨A', _, rfl, k2, k2'.congr fun c hc => ?_⟩
    rw [huu hsm]; rfl

theorem InDisk.calls (hi : i0 + nx ≤ g.nx) (hj : j0 + ny ≤ g.ny) (hg : g.Proper) (hg' : (g.window i0 j0 nx ny).Proper)
    (hx : ∃ c, g.Has c ∧ frameX g center rotation c ≠ 0)
    (hx' : ∃ c, (g.window i0 j0 nx ny).Has c ∧ frameX (g.window i0 j0 nx ny) center rotation c ≠ 0) :
    ∀ (ks : List DiskCall) (p p' p1 : Param), Sound p g f2 center rotation → Sound p' (g.window i0 j0 nx ny) f2 center rotation →
      InDisk p p' g i0 j0 nx ny (SameMaxX g i0 j0 nx ny center rotation) → (∀ c ∈ ks, c.Valid) → runAll DiskCall.run p ks = .ok p1 →
      ∃ p1', runAll DiskCall.run p' ks = .ok p1' ∧ Sound p1 g f2 center rotation ∧ Sound p1' (g.window i0 j0 nx ny) f2 center rotation ∧
        InDisk p1 p1' g i0 j0 nx ny (SameMaxX g i0 j0 nx ny center rotation) ∧ p1.cube = p.cube ∧ p1'.cube = p'.cube
  | [], p, p', p1, h, h', hU, _, hr => by cases hr; exact ⟨p', rfl, h, h', hU, rfl, rfl⟩
  | c :: ks, p, p', p1, h, h', hU, hv, hr => by
    have hc := hv c List.mem_cons_self
    have : (DiskCall.run p c >>= fun q => runAll DiskCall.run q ks) = .ok p1 := hr
    by_cases ht : p.logPt ≠ none ∨ c.field = .age ∨ c.field = .metal
    · obtain ⟨p2, k1, k2⟩ := h.disk hg hx c hc ht
      obtain ⟨p2', k1', k2'⟩ := h'.disk hg' hx' c hc (by rw [hU.logPt]; exact ht)
      rw [k1] at this
      obtain ⟨p1', e1, e2, e3, e4, e5, e6⟩ := InDisk.calls hi hj hg hg' hx hx' ks p2 p2' p1 k2 k2' (InDisk.disk hi hj h h' hU hg hg' hx hx' c hc ht k1 k1')
        (fun c' hc' => hv c' (List.mem_cons_of_mem _ hc')) this
      refine ⟨p1', ?_, e2, e3, e4, e5.trans (disk_writes k1).cube, e6.trans (disk_writes k1').cube⟩
      show (c.run p' >>= fun q => runAll DiskCall.run q ks) = .ok p1'
      rw [k1']; exact e1
    · push Not at ht
      rw [h.disk_early c hc ht.1 ht.2] at this
      cases this

theorem InDisk.diskInField {same : Prop} (hU : InDisk p p' g i0 j0 nx ny same) (h : ParamIs p g m L) {m' : Ingredients}
    (h' : ParamIs p' (g.window i0 j0 nx ny) m' L) (hi : i0 + nx ≤ g.nx) (hj : j0 + ny ≤ g.ny)
    (hpos : ∀ t < g.nt, ∀ x < g.nx, ∀ y < g.ny, 0 < m.px t x y) (hpos' : ∀ t < g.nt, ∀ x < nx, ∀ y < ny, 0 < m'.px t x y)
    (hz : ∀ t < g.nt, ∀ x < g.nx, ∀ y < g.ny, ∀ z < g.nz, 0 < m.pz t x y z) (hz' : ∀ t < g.nt, ∀ x < nx, ∀ y < ny, ∀ z < g.nz, 0 < m'.pz t x y z) :
    DiskInField p p' g i0 j0 nx ny same := by
  have hd : ∀ {c}, (g.window i0 j0 nx ny).Has c → g.Has (moved i0 j0 c) := fun hc => moved_has hi hj hc
  have mu : ∀ c, (g.window i0 j0 nx ny).Has c → m'.mu c.t c.x c.y = m.mu c.t (i0 + c.x) (j0 + c.y) := fun c hc => by
    obtain ⟨A, e, hA⟩ := h.muV
    obtain ⟨A', e', hA'⟩ := h'.muV
    obtain ⟨B, F, e2, k1, k2⟩ := hU.mean A e
    obtain rfl : A' = B := Option.some.inj (e'.symm.trans e2)
    exact Num.fin.inj ((hA'.2 c hc).symm.trans ((k2.2 c hc).trans ((k1.2 _ (hd hc)).symm.trans (hA.2 _ (hd hc)))))
  have sig : same → ∀ c, (g.window i0 j0 nx ny).Has c → m'.sig c.t c.x c.y = m.sig c.t (i0 + c.x) (j0 + c.y) := fun hsm c hc => by
    obtain ⟨A, e, hA⟩ := h.sigV
    obtain ⟨A', e', hA'⟩ := h'.sigV
    obtain ⟨B, F, e2, k1, k2⟩ := hU.disp hsm A e
    obtain rfl : A' = B := Option.some.inj (e'.symm.trans e2)
    exact Num.fin.inj ((hA'.2 c hc).symm.trans ((k2.2 c hc).trans ((k1.2 _ (hd hc)).symm.trans (hA.2 _ (hd hc)))))
  have pz : same → ∀ c, (g.window i0 j0 nx ny).Has c → m'.pz c.t c.x c.y c.z = m.pz c.t (i0 + c.x) (j0 + c.y) c.z := fun hsm c hc => by
    obtain ⟨A, e, hA⟩ := h.logPztx
    obtain ⟨A', e', hA'⟩ := h'.logPztx
    obtain ⟨B, F, e2, k1, k2⟩ := hU.metal hsm A e
    obtain rfl : A' = B := Option.some.inj (e'.symm.trans e2)
    have hA := larr_iff.1 ((isArr_cond_iff (by decide) (by decide)).1 hA)
    have hA' := larr_iff.1 ((isArr_cond_iff (by decide) (by decide)).1 hA')
    have hm := hd hc
    exact lg_injective (hz' _ hc.1 _ hc.2.2.1 _ hc.2.2.2.1 _ hc.2.2.2.2) (hz _ hm.1 _ hm.2.2.1 _ hm.2.2.2.1 _ hm.2.2.2.2)
      ((hA'.2 c hc).symm.trans ((k2.2 c hc).trans ((k1.2 _ hm).symm.trans (hA.2 _ hm))))
  have px : ∃ κ : ℕ → ℝ, (∀ t, 0 < κ t) ∧ ∀ c, (g.window i0 j0 nx ny).Has c → m'.px c.t c.x c.y = κ c.t * m.px c.t (i0 + c.x) (j0 + c.y) := by
    obtain ⟨A, e, hA⟩ := h.logPxt
    obtain ⟨A', e', hA'⟩ := h'.logPxt
    obtain ⟨B, q, κ, e2, hκ, hq, k1, k2⟩ := hU.space A e
    obtain rfl : A' = B := Option.some.inj (e'.symm.trans e2)
    have hA := larr_iff.1 ((isArr_cond_iff (by decide) (by decide)).1 hA)
    have hA' := larr_iff.1 ((isArr_cond_iff (by decide) (by decide)).1 hA')
    refine ⟨κ, hκ, fun c hc => ?_⟩
    have hm := hd hc
    have e1 : q (moved i0 j0 c) = m.px c.t (i0 + c.x) (j0 + c.y) := lg_injective (hq _ hm) (hpos _ hm.1 _ hm.2.2.1 _ hm.2.2.2.1) ((k1.2 _ hm).symm.trans (hA.2 _ hm))
    rw [← e1]
    exact lg_injective (hpos' _ hc.1 _ hc.2.2.1 _ hc.2.2.2.1) (mul_pos (hκ _) (hq _ hm)) ((hA'.2 c hc).symm.trans (k2.2 c hc))
  have cell : ∀ {k : ℕ} {t i j z : ℕ}, k < g.nv → t < g.nt → i < nx → j < ny → z < g.nz → (g.window i0 j0 nx ny).Has ⟨t, k, i, j, z⟩ :=
    fun h1 h2 h3 h4 h5 => ⟨h2, h1, h3, h4, h5⟩
  constructor
  · intro density
    obtain ⟨A, e, hA⟩ := h.logPt
    obtain ⟨q, q1, q2, q3⟩ := C32_marginals h density false (by simp) ['t'] (by decide)
    obtain ⟨q', q1', q2', q3'⟩ := C32_marginals h' density false (by simp) ['t'] (by decide)
    refine ⟨q, q', q1, q1', q2, q2', fun t ht => ?_⟩
    have hc : (g.window i0 j0 nx ny).Has ⟨t, 0, 0, 0, 0⟩ := cell h.proper.nv ht h'.proper.nx h'.proper.ny h.proper.nz
    have e0 : m'.pt t = m.pt t := by
      obtain ⟨A', e', hA'⟩ := h'.logPt
      obtain rfl : A' = A := Option.some.inj (e'.symm.trans (hU.logPt.trans e))
      have k1 : A'.get [t] = Num.lg (m'.pt t) := hA'.2 _ hc
      have k2 : A'.get [t] = Num.lg (m.pt t) := hA.2 _ (hd hc)
      have k3 := congrArg Num.exp (k1.symm.trans k2)
      rw [Num.exp_lg (h'.norm.pt t), Num.exp_lg (h.norm.pt t)] at k3
      exact Num.fin.inj k3
    refine (q3' _ hc).trans (Eq.trans ?_ (q3 _ (hd hc)).symm)
    rw [← ingr_marginal h, ← ingr_marginal h', Pop.marginal, Pop.marginal, h.amount_t (hd hc), h'.amount_t hc]
    unfold Ingredients.probT
    simp only [Bool.false_eq_true, if_false, div_one]
    rw [show m'.pt (Cell.mk t 0 0 0 0).t = m.pt t from e0, window_volOf]
    rfl
  · obtain ⟨κ, hκ, hp⟩ := px
    refine ⟨κ, fun t _ => hκ t, fun density => ?_⟩
    obtain ⟨⟨q, q1, q2, q3⟩, -, -⟩ := C32_ingredients h density
    obtain ⟨⟨q', q1', q2', q3'⟩, -, -⟩ := C32_ingredients h' density
    refine ⟨q, q', q1, q1', q2, q2', fun i hi' j hj' t ht => ?_⟩
    have hc := cell h.proper.nv ht hi' hj' h.proper.nz
    refine ⟨_, q3 _ (hd hc), (q3' _ hc).trans (congrArg Num.fin ?_)⟩
    unfold Ingredients.probX
    rw [hp _ hc, window_volOf, mul_assoc, mul_div_assoc]
    rfl
  · intro lw
    obtain ⟨dtx, -⟩ := mean_dispatch p lw
    obtain ⟨dtx', -⟩ := mean_dispatch p' lw
    obtain ⟨M, h1, h2⟩ := h.meanVtx lw
    obtain ⟨M', h1', h2'⟩ := h'.meanVtx lw
    refine ⟨M, M', dtx.trans h1, dtx'.trans h1', h2.1, h2'.1, fun t ht i hi' j hj' => ?_⟩
    have hc := cell h.proper.nv ht hi' hj' h.proper.nz
    refine (h2'.2 _ hc).trans (Eq.trans ?_ (h2.2 _ (hd hc)).symm)
    beta_reduce
    rw [mu _ hc]; rfl
  · intro hsm density a ha
    obtain ⟨-, ⟨q, q1, q2, q3⟩, ⟨r, r1, r2, r3⟩⟩ := C32_ingredients h density
    obtain ⟨-, ⟨q', q1', q2', q3'⟩, ⟨r', r1', r2', r3'⟩⟩ := C32_ingredients h' density
    simp only [List.mem_cons, List.not_mem_nil, or_false] at ha
    rcases ha with rfl | rfl
    · refine ⟨q, q', q1, q1', q2, q2', fun k hk t ht i hi' j hj' => ?_⟩
      have hc := cell hk ht hi' hj' h.proper.nz
      refine (q3' _ hc).trans (Eq.trans ?_ (q3 _ (hd hc)).symm)
      unfold Ingredients.probV
      rw [mu _ hc, sig hsm _ hc]; rfl
    · refine ⟨r, r', r1, r1', r2, r2', fun k hk t ht i hi' j hj' => ?_⟩
      have hc := cell h.proper.nv ht hi' hj' hk
      refine (r3' _ hc).trans (Eq.trans ?_ (r3 _ (hd hc)).symm)
      unfold Ingredients.probZ
      rw [pz hsm _ hc]; rfl
  · intro hsm hf lw j
    obtain ⟨r, r1, r2, r3⟩ := C34_closed_form h hf lw j (Or.inl rfl)
    obtain ⟨r', r1', r2', r3'⟩ := C34_closed_form h' (hU.f2.trans hf) lw j (Or.inl rfl)
    refine ⟨r, r', r1, r1', r2, r2', fun t ht i hi' k hk => ?_⟩
    have hc := cell h.proper.nv ht hi' hk h.proper.nz
    refine (r3' _ hc).trans (Eq.trans ?_ (r3 _ (hd hc)).symm)
    rw [sig hsm _ hc]; rfl

/-- **C105**, growing disks. Make a disk with the same setter calls on a cube and on some of its pixels, neither all on the line `x = 0` of the disk: the star
formation history and the mean velocities of the stars of every age are the same, and the images of the stars of an age are proportional. If the largest
`|x|` is the same in both cubes, so are the distributions of velocity and metallicity of the stars of an age in a pixel. What is missing: the same whatever the
largest `|x|`, which is false (`C105_disk_wrong`). -/
theorem C105_disk_partial {cube cube' : IFUCube} (hc : CubeIs cube g) (hi : i0 + nx ≤ g.nx) (hj : j0 + ny ≤ g.ny) (hx : 0 < nx) (hy : 0 < ny)
    (hc' : CubeIs cube' (g.window i0 j0 nx ny)) (hs : cube'.ssps = cube.ssps) (hg : g.Proper)
    (hl : IsArr g ['t','z'] cube.ssps.lightWeights (fun c => .fin (L c.t c.z))) (hL : ∀ t z, 0 ≤ L t z)
    (ho : ∃ c, (g.window i0 j0 nx ny).Has c ∧ frameX (g.window i0 j0 nx ny) center rotation c ≠ 0)
    (ks : List DiskCall) (hv : ∀ k ∈ ks, k.Valid) (hall : ∀ f : Field, ∃ k ∈ ks, k.field = f) (hp : makeDisk f2 cube center rotation ks = .ok p) :
    ∃ p', makeDisk f2 cube' center rotation ks = .ok p' ∧ DiskInField p p' g i0 j0 nx ny (SameMaxX g i0 j0 nx ny center rotation) := by
  have hg' := hg.window hi hj hx hy
  have ho' : ∃ c, g.Has c ∧ frameX g center rotation c ≠ 0 := by
    obtain ⟨c, h1, h2⟩ := ho
    exact ⟨moved i0 j0 c, moved_has hi hj h1, h2⟩
  obtain ⟨p0, p0', k1, k2, k3, k1', k2', k3', hU, k4, k4'⟩ := init_field hc hc' hs hg hg' f2 center rotation
  have hU' : InDisk p0 p0' g i0 j0 nx ny (SameMaxX g i0 j0 nx ny center rotation) := ⟨hU.ssps, hU.f2, hU.zGrid, hU.tPars, hU.logPt, fun A hA =>
    absurd (hA.symm.trans (k4 .space p0.logPxt (by simp [Field.get]))) (by simp), fun _ => hU.metal, hU.mean, fun _ => hU.disp⟩
  have hr : runAll DiskCall.run p0 ks = .ok p := by
    unfold makeDisk at hp
    rwa [k1] at hp
  obtain ⟨p', e1, e2, e3, e4, e5, e6⟩ := InDisk.calls hi hj hg hg' ho' ho ks p0 p0' p k3 k3' hU' hv hr
  refine ⟨p', ?_, ?_⟩
  · unfold makeDisk
    rw [k1']; exact e1
  have hf : ∀ {p p0 : Param}, runAll DiskCall.run p0 ks = .ok p → (∀ f : Field, ∀ a ∈ f.get p0, a = none) → ∀ f : Field, none ∉ f.get p :=
    fun {p p0} hr k4 f => by
      rw [(set_fields (base := fun p => p) (fun {s s' k} h => disk_writes h) ks p0 p hr (fun f => Or.inr (k4 f)) f).1]
      exact Or.inr (hall f)
  obtain ⟨m, i1, i2, i3⟩ := e2.paramIs hg (by rw [e5, k2]; exact hl) hL (hf hr k4)
  obtain ⟨m', i1', i2', i3'⟩ := e3.paramIs hg' (L := L)
    (by rw [e6, k2', hs]; exact ⟨hl.1, fun c hc => hl.2 (moved i0 j0 c) (moved_has hi hj hc)⟩) hL (hf e1 k4')
  exact e4.diskInField i1 i1' hi hj i2 i2' i3 i3'

/-- Two such cubes: evenly divided ranges, and the part of them from one edge of the pixels to another. -/
theorem C105_cube {s : SSPs} {nt nz : ℕ} {t z : ℕ → ℝ} (hs : SspsAre s nt nz t z) (Nx Ny nv : ℕ) (hi : i0 + nx ≤ Nx) (hj : j0 + ny ≤ Ny) (hx : 0 < nx)
    (hy : 0 < ny) (hv : 0 < nv) (x1rng x2rng vrng : ℝ × ℝ) : ∃ cube cube', IFUCube.init s Nx Ny nv x1rng x2rng vrng = .ok cube ∧
      IFUCube.init s nx ny nv (x1rng.1 + i0 * ((x1rng.2 - x1rng.1) / Nx), x1rng.1 + (i0 + nx) * ((x1rng.2 - x1rng.1) / Nx))
        (x2rng.1 + j0 * ((x2rng.2 - x2rng.1) / Ny), x2rng.1 + (j0 + ny) * ((x2rng.2 - x2rng.1) / Ny)) vrng = .ok cube' ∧ cube'.ssps = cube.ssps ∧
      cube.ssps = s ∧ CubeIs cube (cubeGrid nt nz t z Nx Ny nv x1rng x2rng vrng) ∧
      CubeIs cube' ((cubeGrid nt nz t z Nx Ny nv x1rng x2rng vrng).window i0 j0 nx ny) := by
  obtain ⟨c, h1, h2, h3, -⟩ := C03_constructor hs Nx Ny nv (by omega) (by omega) hv x1rng x2rng vrng
  obtain ⟨c', h1', h2', h3', -⟩ := C03_constructor hs nx ny nv hx hy hv
    (x1rng.1 + i0 * ((x1rng.2 - x1rng.1) / Nx), x1rng.1 + (i0 + nx) * ((x1rng.2 - x1rng.1) / Nx))
    (x2rng.1 + j0 * ((x2rng.2 - x2rng.1) / Ny), x2rng.1 + (j0 + ny) * ((x2rng.2 - x2rng.1) / Ny)) vrng
  refine ⟨c, c', h1, h1', by rw [h3, h3'], h3, h2, ?_⟩
  convert h2' using 1
  unfold Grid.window cubeGrid
  have key : ∀ (r : ℝ × ℝ) (N n k : ℕ), 0 < n → (fun i => evenEdges r N (k + i)) =
      evenEdges (r.1 + k * ((r.2 - r.1) / N), r.1 + (k + n) * ((r.2 - r.1) / N)) n := fun r N n k hn => by
    funext i
    have : (n : ℝ) ≠ 0 := by exact_mod_cast hn.ne'
    unfold evenEdges
    push_cast
    field_simp
    ring
  simp only [key x1rng Nx nx i0 hx, key x2rng Ny ny j0 hy]

/-- Calls of the setters of a disk whose dispersion falls outwards. -/
def fieldCalls : List DiskCall :=
  [.setPt 15 0.5 (0.05, 0.95), .setPxt (0.5, 0.1) (0.5, 0.1) (0.5, 2), .setTDep 0.1 1.5 0.5 6 0.1 13, .setMuV (0.5, 0.5) (0.1, 1) (50, 250)]

theorem fieldCalls_valid : ∀ k ∈ fieldCalls ++ [.setSigV (1, 1) (1, 1) (20, 20) (10, 10)], k.Valid := by
  intro k hk
  simp only [fieldCalls, List.cons_append, List.nil_append, List.mem_cons, List.not_mem_nil, or_false] at hk
  rcases hk with rfl | rfl | rfl | rfl | rfl <;> norm_num [DiskCall.Valid, ValidSfh]

theorem atAge_const (s e a : ℝ) (t : ℕ) : atAge g s e (a, a) t = a := by
  unfold atAge ramp
  split_ifs <;> simp

/-- The disk of those calls, and the variances of its velocities. -/
theorem field_disk {cube : IFUCube} (hc : CubeIs cube g) (hg : g.Proper) (hl : IsArr g ['t','z'] cube.ssps.lightWeights (fun c => .fin (L c.t c.z)))
    (hL : ∀ t z, 0 ≤ L t z) {u : ℝ} (hm : MaxX g center rotation u) (hu : 0 < u) :
    ∃ p, makeDisk 1 cube center rotation (fieldCalls ++ [.setSigV (1, 1) (1, 1) (20, 20) (10, 10)]) = .ok p ∧
      ∀ lw, ∃ r, getCentralMoment p.self (distStr ['v'] ['t','x']) 2 lw = .ok r ∧
        ∀ c, g.Has c → r.get (coords ['t','x'] c) = .fin ((20 - 10 * min 1 (ellR g center rotation 1 c / u)) ^ 2) := by
  obtain ⟨p0, k1, k2, k3, k4⟩ := init_sound hc hg 1 center rotation
  obtain ⟨c0, hc0, e0⟩ := hm.1
  have off : ∃ c, g.Has c ∧ frameX g center rotation c ≠ 0 := ⟨c0, hc0, fun e => by rw [e, abs_zero] at e0; exact hu.ne e0⟩
  rcases disk_history hg off fieldCalls p0 k3 (fun k hk => fieldCalls_valid k (List.mem_append_left _ hk)) with ⟨p1, j1, j2, j3⟩ | ⟨-, -, j⟩
  · have h1 : p1.logPt ≠ none := fun e => by
      refine (set_fields (base := id) (fun {s s' k} h => disk_writes h) fieldCalls p0 p1 j1 (fun f => Or.inr (k4 f)) .age).1.2
        (Or.inr ⟨.setPt 15 0.5 (0.05, 0.95), List.mem_cons_self, rfl⟩) ?_
      simp [Field.get, e]
    obtain ⟨s, e, ha⟩ := j2.aged h1
    obtain ⟨A, i1, i2⟩ := disk_setSigV j2.built hg ha (q := (1, 1)) (alpha := (1, 1)) (sIn := (20, 20)) (sOut := (10, 10))
      (by norm_num) (by norm_num) (by norm_num) (by norm_num) hm hu
    obtain ⟨p2, l1, l2⟩ := j2.disk hg off (.setSigV (1, 1) (1, 1) (20, 20) (10, 10)) (fieldCalls_valid _ (by simp)) (Or.inl h1)
    obtain rfl : _ = p2 := Except.ok.inj (i1.symm.trans l1)
    have hr : runAll DiskCall.run p0 (fieldCalls ++ [.setSigV (1, 1) (1, 1) (20, 20) (10, 10)]) = .ok { p1 with sigV := some A } := by
      rw [runAll_append, j1]
      show (DiskCall.run p1 _ >>= fun q => runAll DiskCall.run q []) = _
      rw [l1]; rfl
    obtain ⟨m, n1, -, -⟩ := l2.paramIs hg (L := L) (by show IsArr g _ p1.cube.ssps.lightWeights _; rw [j3, k2]; exact hl) hL (fun f => by
      refine (set_fields (base := id) (fun {s s' k} h => disk_writes h) _ p0 _ hr (fun f => Or.inr (k4 f)) f).1.2 (Or.inr ?_)
      cases f <;> simp [fieldCalls, DiskCall.field])
    refine ⟨{ p1 with sigV := some A }, ?_, fun lw => ?_⟩
    · unfold makeDisk
      rw [k1]; exact hr
    · obtain ⟨r, r1, -, r2⟩ := C34_closed_form n1 l2.built.f2 lw 2 (Or.inl rfl)
      refine ⟨r, r1, fun c hc => (r2 c hc).trans ?_⟩
      obtain ⟨A', e', hA'⟩ := n1.sigV
      obtain rfl : A = A' := Option.some.inj e'
      have hs : diskSig g center rotation s e u (1, 1) (1, 1) (20, 20) (10, 10) c = m.sig c.t c.x c.y :=
        Num.fin.inj ((i2.2 c hc).symm.trans (hA'.2 c hc))
      rw [← hs]
      unfold diskSig fade
      simp only [atAge_const, Real.rpow_one]
      have : evenDouble 2 = 1 := by norm_num [evenDouble, Nat.doubleFactorial]
      rw [this, one_mul]
      congr 2
      ring
  · exfalso
    obtain ⟨pre, k, post, j1, j2, j3⟩ := j
    cases pre with
    | nil => simp only [List.nil_append, fieldCalls, List.cons.injEq] at j1; rw [← j1.1] at j3; exact j3.1 rfl
    | cons k' pre =>
      simp only [List.cons_append, fieldCalls, List.cons.injEq] at j1
      exact j2 k' (by simp) (by rw [← j1.1]; rfl)

theorem maxX_demo : MaxX demoGrid (0, 3 / 2) 0 (4 / 5) ∧ MaxX (demoGrid.window 1 0 3 6) (0, 3 / 2) 0 (2 / 5) := by
  have k : ∀ c, frameX demoGrid (0, 3 / 2) 0 c = -4 / 5 + c.x * (2 / 5) := fun c => by
    simp [frameX, PKM.centre, demoGrid, cubeGrid, evenEdges]; ring
  have k' : ∀ c, frameX (demoGrid.window 1 0 3 6) (0, 3 / 2) 0 c = -2 / 5 + c.x * (2 / 5) := fun c => by
    refine (k (moved 1 0 c)).trans ?_
    simp [moved]; ring
  refine ⟨⟨⟨⟨0, 0, 0, 0, 0⟩, by simp [Grid.Has, demoGrid, cubeGrid], ?_⟩, fun c hc => ?_⟩,
    ⟨⟨⟨0, 0, 0, 0, 0⟩, by simp [Grid.Has, demoGrid, cubeGrid, Grid.window], ?_⟩, fun c hc => ?_⟩⟩
  · rw [k]; norm_num [abs_of_neg, abs_of_pos]
  · have h : c.x ≤ 4 := Nat.lt_succ_iff.1 hc.2.2.1
    have h' : (c.x : ℝ) ≤ 4 := by exact_mod_cast h
    have := (Nat.cast_nonneg c.x : (0:ℝ) ≤ c.x)
    rw [k, abs_le]; constructor <;> linarith
  · rw [k']; norm_num [abs_of_neg, abs_of_pos]
  · have h : c.x ≤ 2 := Nat.lt_succ_iff.1 hc.2.2.1
    have h' : (c.x : ℝ) ≤ 2 := by exact_mod_cast h
    have := (Nat.cast_nonneg c.x : (0:ℝ) ≤ c.x)
    rw [k', abs_le]; constructor <;> linarith

theorem ellR_demo : ellR demoGrid (0, 3 / 2) 0 1 ⟨0, 0, 2, 2, 0⟩ = 1 / 4 := by
  have h1 : frameX demoGrid (0, 3 / 2) 0 ⟨0, 0, 2, 2, 0⟩ = 0 := by
    simp [frameX, PKM.centre, demoGrid, cubeGrid, evenEdges]; norm_num
  have h2 : frameY demoGrid (0, 3 / 2) 0 ⟨0, 0, 2, 2, 0⟩ = -1 / 4 := by
    simp [frameY, PKM.centre, demoGrid, cubeGrid, evenEdges]; norm_num
  unfold ellR
  rw [h1, h2, show (0:ℝ) ^ 2 + (-1 / 4 / 1) ^ 2 = (1 / 4) ^ 2 by norm_num, Real.sqrt_sq (by norm_num)]

/-- **C105**, refuted for growing disks. Two disks with the same (valid) setter calls, on a cube of five columns and on one with the three of them in the
middle: in a pixel of both, the stars of the same age have different variances of velocity. -/
theorem C105_disk_wrong : ∃ (cube cube' : IFUCube) (p p' : Param) (ks : List DiskCall), CubeIs cube demoGrid ∧ CubeIs cube' (demoGrid.window 1 0 3 6) ∧
    cube'.ssps = cube.ssps ∧ (∀ k ∈ ks, k.Valid) ∧ makeDisk 1 cube (0, 3 / 2) 0 ks = .ok p ∧ makeDisk 1 cube' (0, 3 / 2) 0 ks = .ok p' ∧
    ∀ lw, ∃ r r' u u', getCentralMoment p.self (distStr ['v'] ['t','x']) 2 lw = .ok r ∧ getCentralMoment p'.self (distStr ['v'] ['t','x']) 2 lw = .ok r' ∧
      ∃ c, (demoGrid.window 1 0 3 6).Has c ∧ r.get (coords ['t','x'] (moved 1 0 c)) = .fin u ∧ r'.get (coords ['t','x'] c) = .fin u' ∧ u' < u := by
  obtain ⟨cube, cube', -, -, hs, es, hc, hc'⟩ := C105_cube (i0 := 1) (j0 := 0) (nx := 3) (ny := 6) demoSSPs_are 5 6 4 (by norm_num) (by norm_num)
    (by norm_num) (by norm_num) (by norm_num) (-1, 1) (0, 3) (-100, 300)
  have hg' : (demoGrid.window 1 0 3 6).Proper := demoGrid_proper.window (by decide) (by decide) (by norm_num) (by norm_num)
  obtain ⟨p, k1, k2⟩ := field_disk (g := demoGrid) (L := demoL) hc demoGrid_proper (demo_light es) (fun t z => (demoL_pos t z).le) maxX_demo.1 (by norm_num)
  obtain ⟨p', k1', k2'⟩ := field_disk (g := demoGrid.window 1 0 3 6) (L := demoL) hc' hg' (by rw [hs, es]; exact ⟨rfl, fun c _ => rfl⟩) (fun t z => (demoL_pos t z).le)
    maxX_demo.2 (by norm_num)
  refine ⟨cube, cube', p, p', _, hc, hc', hs, fieldCalls_valid, k1, k1', fun lw => ?_⟩
  obtain ⟨r, r1, r2⟩ := k2 lw
  obtain ⟨r', r1', r2'⟩ := k2' lw
  have h0 : (demoGrid.window 1 0 3 6).Has ⟨0, 0, 1, 2, 0⟩ := by simp [Grid.Has, demoGrid, cubeGrid, Grid.window]
  refine ⟨r, r', _, _, r1, r1', ⟨0, 0, 1, 2, 0⟩, h0, r2 _ (moved_has (by decide) (by decide) h0), r2' _ h0, ?_⟩
  have e : ellR (demoGrid.window 1 0 3 6) (0, 3 / 2) 0 1 ⟨0, 0, 1, 2, 0⟩ = 1 / 4 := ellR_demo
  have e' : ellR demoGrid (0, 3 / 2) 0 1 (moved 1 0 ⟨0, 0, 1, 2, 0⟩) = 1 / 4 := ellR_demo
  rw [e, e']
  norm_num

/-- A demonstration stream. -/
example : ∃ (cube cube' : IFUCube) (s s' : Stream) (ks : List StreamCall), CubeIs cube demoGrid ∧ CubeIs cube' (demoGrid.window 1 2 3 2) ∧
    makeStream 1 cube (0, 3 / 2) 0 ks = .ok s ∧ makeStream 1 cube' (0, 3 / 2) 0 ks = .ok s' ∧ SameInField s.base s'.base demoGrid 1 2 3 2 := by
  obtain ⟨cube, cube', -, -, hs, es, hc, hc'⟩ := C105_cube (i0 := 1) (j0 := 2) (nx := 3) (ny := 2) demoSSPs_are 5 6 4 (by norm_num) (by norm_num)
    (by norm_num) (by norm_num) (by norm_num) (-1, 1) (0, 3) (-100, 300)
  have hpi := Real.two_le_pi
  let ks : List StreamCall := [.setPt 15 0.5 (0.05, 0.95), .setPxt (0, 1) (1 / 2, 1) (1 / 4) 10, .setTDep 5, .setMuV (-50, 100), .setSigV 20]
  have hv : ∀ c ∈ ks, c.Valid := by
    intro c hc
    simp only [ks, List.mem_cons, List.not_mem_nil, or_false] at hc
    rcases hc with rfl | rfl | rfl | rfl | rfl
    · simp only [StreamCall.Valid, ValidSfh]; norm_num
    · refine ⟨⟨by linarith, by linarith⟩, ⟨?_, ?_⟩, by norm_num, by norm_num, by norm_num⟩
      · show -Real.pi ≤ 1; linarith
      · show 1 ≤ Real.pi; linarith
    · trivial
    · trivial
    · show (0:ℝ) < 20; norm_num
  obtain ⟨p0, k1, k2, k3, k4⟩ := init_sound hc demoGrid_proper 1 (0, 3 / 2) 0
  have n : p0.logPxt = none := k4 .space _ (by simp [Field.get])
  rcases stream_history demoGrid_proper ks ⟨p0, none⟩ ⟨k3, by simp, by simp [n]⟩ hv with ⟨s, j1, j2, j3⟩ | ⟨-, -, j⟩
  · have hp : makeStream 1 cube (0, 3 / 2) 0 ks = .ok s := by
      unfold makeStream Stream.init
      rw [k1]; exact j1
    obtain ⟨s', e1, e2⟩ := C105_stream_partial (L := fun t _ => t + 1) hc (by decide) (by decide) (by norm_num) (by norm_num) hc' hs demoGrid_proper
      (by rw [es]; exact ⟨rfl, fun c _ => rfl⟩) (fun t _ => by positivity) ks hv
      (fun f => by cases f <;> simp [ks, StreamCall.field]) hp
    exact ⟨cube, cube', s, s', ks, hc, hc', hp, e1, e2⟩
  · exfalso
    obtain ⟨pre, k, post, j1, j2, j3⟩ := j
    match pre, j1, j2 with
    | [], j1, _ => simp only [List.nil_append, ks, List.cons.injEq] at j1; rw [← j1.1] at j3; cases j3
    | [_], j1, _ => simp only [List.cons_append, List.nil_append, ks, List.cons.injEq] at j1; rw [← j1.2.1] at j3; cases j3
    | k1 :: k2 :: pre, j1, j2 =>
      simp only [List.cons_append, ks, List.cons.injEq] at j1
      exact j2 k2 (by simp) (by rw [← j1.2.1]; rfl)

/-- The demonstration disk of `C105_disk_wrong`, through a field with fewer rows: the largest `|x|` is the same. -/
example : ∃ (cube cube' : IFUCube) (p p' : Param) (ks : List DiskCall), CubeIs cube demoGrid ∧ CubeIs cube' (demoGrid.window 0 1 5 4) ∧
    makeDisk 1 cube (0, 3 / 2) 0 ks = .ok p ∧ makeDisk 1 cube' (0, 3 / 2) 0 ks = .ok p' ∧
    DiskInField p p' demoGrid 0 1 5 4 (SameMaxX demoGrid 0 1 5 4 (0, 3 / 2) 0) ∧ SameMaxX demoGrid 0 1 5 4 (0, 3 / 2) 0 := by
  obtain ⟨cube, cube', -, -, hs, es, hc, hc'⟩ := C105_cube (i0 := 0) (j0 := 1) (nx := 5) (ny := 4) demoSSPs_are 5 6 4 (by norm_num) (by norm_num)
    (by norm_num) (by norm_num) (by norm_num) (-1, 1) (0, 3) (-100, 300)
  obtain ⟨p, k1, -⟩ := field_disk (g := demoGrid) (L := demoL) hc demoGrid_proper (demo_light es) (fun t z => (demoL_pos t z).le) maxX_demo.1 (by norm_num)
  have hm : MaxX (demoGrid.window 0 1 5 4) (0, 3 / 2) 0 (4 / 5) := by
    have e : ∀ c, frameX (demoGrid.window 0 1 5 4) (0, 3 / 2) 0 c = frameX demoGrid (0, 3 / 2) 0 c := fun c => by
      simp [frameX, Grid.window]
    refine ⟨⟨⟨0, 0, 0, 0, 0⟩, by simp [Grid.Has, demoGrid, cubeGrid, Grid.window], ?_⟩, fun c hc => ?_⟩
    · rw [e]
      norm_num [frameX, PKM.centre, demoGrid, cubeGrid, evenEdges, abs_of_neg]
    · have := maxX_demo.1.2 _ (moved_has (by decide) (by decide) hc)
      rw [e]
      rwa [show frameX demoGrid (0, 3 / 2) 0 (moved 0 1 c) = frameX demoGrid (0, 3 / 2) 0 c by simp [frameX, moved]] at this
  obtain ⟨p', k2, k3⟩ := C105_disk_partial (g := demoGrid) (L := demoL) hc (by decide) (by decide) (by norm_num) (by norm_num) hc' hs demoGrid_proper
    (demo_light es) (fun t z => (demoL_pos t z).le) (by
      obtain ⟨c, h1, h2⟩ := hm.1
      exact ⟨c, h1, fun e => by rw [e] at h2; norm_num at h2⟩) _ fieldCalls_valid (fun f => by cases f <;> simp [fieldCalls, DiskCall.field]) k1
  exact ⟨cube, cube', p, p', _, hc, hc', k1, k2, k3, _, maxX_demo.1, hm⟩

end PKM
