import Verif.Props.StreamEnds

/-!
# C101: turning a component the other way gives its mirror image

On a cube whose pixels are symmetric in `y` about the centre of a growing disk, the disk made by the same setter calls with rotation `-ϕ` is the mirror image of the one
with rotation `ϕ`. So are streams with `theta_lims` of the opposite sign. Components with rotation 0 are symmetric themselves.
-/

open scoped Classical
open MeasureTheory ProbabilityTheory Set

noncomputable section

namespace PKM
open Np Component

variable {p p' : Param} {g : Grid} {m : Ingredients} {L : ℕ → ℕ → ℝ} {f2 : ℝ} {center : ℝ × ℝ} {rotation b : ℝ}

/-! ### Specification -/

/-- The cell at the pixel on the other side of the line `y = b`. -/
def flipY (g : Grid) (c : Cell) : Cell := { c with y := g.ny - 1 - c.y }

/-- The value of a quantity in the mirror. -/
def flipValue (b : ℝ) (q : Char) (u : ℝ) : ℝ := if q = 'y' then 2 * b - u else u

/-- The sign of a quantity in the mirror. -/
def flipSign (q : Char) : ℝ := if q = 'y' then -1 else 1

/-- All answers are the same but for the mirror at `y = b`. -/
structure MirrorImage (p p' : Param) (g : Grid) (b : ℝ) : Prop where
  marg : ∀ density lw, ∀ w ∈ marginals, ∃ q q', getP p.self w density lw = .ok q ∧ getP p'.self w density lw = .ok q' ∧ q.shape = g.shapeOf w ∧
    q'.shape = g.shapeOf w ∧ ∀ c, g.Has c → q'.get (coords w (flipY g c)) = q.get (coords w c)
  cond : ∀ density lw, ∀ v w, (v, w) ∈ conditionals → ∃ q q', getP p.self (condStr v w) density lw = .ok q ∧ getP p'.self (condStr v w) density lw = .ok q' ∧
    q.shape = g.shapeOf v ++ g.shapeOf w ∧ q'.shape = g.shapeOf v ++ g.shapeOf w ∧ ∀ c, g.Has c →
      q'.get (coords v (flipY g c) ++ coords w (flipY g c)) = q.get (coords v c ++ coords w c)
  /-- means and moments, wherever there are stars -/
  mean : p.f2 = 1 → ∀ lw w, ∀ q ∈ ['t','v','x','y','z'], ValidPair (varOf q) w → ∃ r r', getMean p.self (distStr (varOf q) w) lw = .ok r ∧
    getMean p'.self (distStr (varOf q) w) lw = .ok r' ∧ r.shape = compShape (varOf q) ++ g.shapeOf w ∧ r'.shape = r.shape ∧
    ∀ c, g.Has c → Populated p lw w c → ∃ u : ℝ, r.get (compIdx q ++ coords w c) = .fin u ∧ r'.get (compIdx q ++ coords w (flipY g c)) = .fin (flipValue b q u)
  central : p.f2 = 1 → ∀ lw w (j : ℕ), ∀ q ∈ ['t','v','x','y','z'], ValidPair (varOf q) w → ∃ r r', getCentralMoment p.self (distStr (varOf q) w) j lw = .ok r ∧
    getCentralMoment p'.self (distStr (varOf q) w) j lw = .ok r' ∧ r.shape = compShape (varOf q) ++ g.shapeOf w ∧ r'.shape = r.shape ∧
    ∀ c, g.Has c → Populated p lw w c → ∃ u : ℝ, r.get (compIdx q ++ coords w c) = .fin u ∧
      r'.get (compIdx q ++ coords w (flipY g c)) = .fin (flipSign q ^ j * u)
  covariance : p.f2 = 1 → ∀ lw w v v', ValidPair [v, v'] w → ∃ r r', (obj p.self).getCovariance (distStr [v, v'] w) lw = .ok r ∧
    (obj p'.self).getCovariance (distStr [v, v'] w) lw = .ok r' ∧ r.shape = compShape [v] ++ compShape [v'] ++ g.shapeOf w ∧ r'.shape = r.shape ∧
    ∀ q ∈ PyStr.replaceX [v], ∀ q' ∈ PyStr.replaceX [v'], ∀ c, g.Has c → Populated p lw w c → ∃ u : ℝ,
      r.get (compIdx q ++ compIdx q' ++ coords w c) = .fin u ∧
      r'.get (compIdx q ++ compIdx q' ++ coords w (flipY g c)) = .fin (flipSign q * flipSign q' * u)
  correlation : p.f2 = 1 → ∀ lw w v v', ValidPair [v, v'] w → ∃ r r', (obj p.self).getCorrelation (distStr [v, v'] w) lw = .ok r ∧
    (obj p'.self).getCorrelation (distStr [v, v'] w) lw = .ok r' ∧ r.shape = compShape [v] ++ compShape [v'] ++ g.shapeOf w ∧ r'.shape = r.shape ∧
    ∀ q ∈ PyStr.replaceX [v], ∀ q' ∈ PyStr.replaceX [v'], ∀ c, g.Has c → Populated p lw w c →
      r'.get (compIdx q ++ compIdx q' ++ coords w (flipY g c)) =
        if (q = 'y' ↔ q' = 'y') then r.get (compIdx q ++ compIdx q' ++ coords w c) else Num.neg (r.get (compIdx q ++ compIdx q' ++ coords w c))
  /-- L-moments of age, velocity and metallicity, wherever the distribution is not nan -/
  lmoment : ∀ lw w (j : ℕ), 1 ≤ j → ∀ q ∈ ['t','v','z'], ValidPair [q] w → ∃ A r r', getP p.self (distStr [q] w) false lw = .ok A ∧
    (obj p.self).getLMoment (distStr [q] w) j lw = .ok r ∧ (obj p'.self).getLMoment (distStr [q] w) j lw = .ok r' ∧ r.shape = g.shapeOf w ∧
    r'.shape = g.shapeOf w ∧ ∀ c, g.Has c → (∀ i < g.bins q, A.get (i :: coords w c) ≠ .nan) → r'.get (coords w (flipY g c)) = r.get (coords w c)
  /-- the datacube -/
  datacube : ∀ sp S n, 0 < n → SpectraAre sp g S n n → ∀ batch ∈ ["none".toList, "column".toList, "spaxel".toList], ∃ y y',
    p.evaluateYbar sp batch = .ok y ∧ p'.evaluateYbar sp batch = .ok y' ∧ y.shape = [n, g.nx, g.ny] ∧ y'.shape = [n, g.nx, g.ny] ∧
    ∀ w < n, ∀ i < g.nx, ∀ j < g.ny, y'.get [w, i, g.ny - 1 - j] = y.get [w, i, j]

/-- The same call for the mirror image of a stream: angles have the opposite sign. -/
def StreamCall.flipped : StreamCall → StreamCall
  | .setPxt theta muR sig n => .setPxt (-theta.1, -theta.2) muR sig n
  | c => c

/-! ### Lemmas: cells -/

theorem flipY_has {c : Cell} (hc : g.Has c) : g.Has (flipY g c) := by
  obtain ⟨h1, h2, h3, h4, h5⟩ := hc
  exact ⟨h1, h2, h3, by show g.ny - 1 - c.y < g.ny; omega, h5⟩

theorem flip_flip {n i : ℕ} (h : i < n) : n - 1 - (n - 1 - i) = i := by omega

theorem flipY_flipY {c : Cell} (hc : g.Has c) : flipY g (flipY g c) = c := by
  obtain ⟨-, -, -, h4, -⟩ := hc
  unfold flipY
  cases c
  simp only [Cell.mk.injEq, true_and, and_true]
  exact flip_flip h4

theorem sumTXZ_flipY (f : Cell → ℝ) : Ingredients.sumTXZ g (fun d => f (flipY g d)) = Ingredients.sumTXZ g f := by
  unfold Ingredients.sumTXZ flipY
  refine Finset.sum_congr rfl fun t _ => Finset.sum_congr rfl fun x _ => ?_
  exact sum_rev (n := g.ny) (fun y => ∑ z : Fin g.nz, f ⟨t, 0, x, y, z⟩)

theorem sumCells_flipY (f : Cell → ℝ) : g.sumCells (fun d => f (flipY g d)) = g.sumCells f := by
  unfold Grid.sumCells flipY
  refine Finset.sum_congr rfl fun t _ => Finset.sum_congr rfl fun v _ => Finset.sum_congr rfl fun x _ => ?_
  exact sum_rev (n := g.ny) (fun y => ∑ z : Fin g.nz, f ⟨t, v, x, y, z⟩)

theorem coords_flip {w : PyStr} (hw : w ∈ [] :: marginals) {c d : Cell} (hc : g.Has c) (hd : g.Has d) :
    coords w (flipY g d) = coords w (flipY g c) ↔ coords w d = coords w c := by
  rw [coords_eq_iff w hw, coords_eq_iff w hw]
  refine forall₂_congr fun ch _ => ?_
  obtain ⟨-, -, -, h4, -⟩ := hc
  obtain ⟨-, -, -, k4, -⟩ := hd
  unfold coord1 flipY
  split_ifs
  · rfl
  · rfl
  · simp only [List.cons.injEq, and_true]; exact and_congr Iff.rfl (flip_eq k4 h4)
  · rfl
  · rfl

theorem flipValue_eq (b : ℝ) (q : Char) : ∃ s, ∀ u, flipValue b q u = s + flipSign q * u := by
  unfold flipValue flipSign
  by_cases h : q = 'y'
  · exact ⟨2 * b, fun u => by simp [h]; ring⟩
  · exact ⟨0, fun u => by simp [h]⟩

theorem flipValue_v (u : ℝ) : flipValue b 'v' u = u := by simp [flipValue]

theorem flipSign_sq (q : Char) : flipSign q ^ 2 = 1 := by unfold flipSign; split <;> norm_num

section
variable (sy : SymmetricAbout g.y g.ny b)
include sy

theorem value_flip (q : Char) {c : Cell} (hc : g.Has c) : g.value q (flipY g c) = flipValue b q (g.value q c) := by
  have h2 := sy.centre hc.2.2.2.1
  unfold Grid.value flipValue flipY
  dsimp only
  by_cases h4 : q = 'y'
  · subst h4
    simp
    linarith
  · simp [h4]

theorem volOf_flip (w : PyStr) {c : Cell} (hc : g.Has c) : g.volOf w (flipY g c) = g.volOf w c := by
  have h2 := sy.width hc.2.2.2.1
  unfold Grid.volOf
  refine congrArg List.prod (List.map_congr_left fun ch _ => ?_)
  unfold Grid.width1 flipY
  dsimp only
  rw [h2]

theorem dens_flip (density : Bool) (w : PyStr) {c : Cell} (hc : g.Has c) :
    (if density then g.volOf w (flipY g c) else 1) = if density then g.volOf w c else 1 := by
  rw [volOf_flip sy w hc]

end

/-! ### Lemmas: populations -/

/-- Populations on opposite sides. -/
structure FlipPop (q q' : Pop) (g : Grid) : Prop where
  joint : ∀ c, g.Has c → q'.joint (flipY g c) = q.joint c
  vel : ∀ φ c, g.Has c → q'.vel φ (flipY g c) = q.vel φ c

section
variable {q q' : Pop} {lw : Bool} {w : PyStr} {c : Cell} (hq : FlipPop q q' g) (hg : g.Proper)
include hq hg

theorem FlipPop.lightOf : q'.lightOf g L w = q.lightOf g L w := by
  unfold Pop.lightOf
  rw [← sumCells_flipY, ← sumTXZ_flipY]
  refine if_congr Iff.rfl (sumCells_has fun d hd => ?_) (sumTXZ_has hg fun d hd => ?_)
  · rw [hq.joint d hd]; rfl
  · unfold Pop.stars; rw [hq.vel _ d hd]; rfl

variable (hw : w ∈ [] :: marginals) (hc : g.Has c)
include hw hc

theorem FlipPop.amount : q'.amount g L lw w (flipY g c) = q.amount g L lw w c := by
  unfold Pop.amount
  rw [← sumCells_flipY, ← sumTXZ_flipY]
  refine if_congr Iff.rfl (sumCells_has fun d hd => ?_) (sumTXZ_has hg fun d hd => ?_)
  · exact if_congr (coords_flip hw hc hd) (by rw [hq.joint d hd]; rfl) rfl
  · exact if_congr (coords_flip hw hc hd) (by unfold Pop.stars; rw [hq.vel _ d hd]; rfl) rfl

theorem FlipPop.marginal : q'.marginal g L lw w (flipY g c) = q.marginal g L lw w c := by
  unfold Pop.marginal
  rw [hq.amount hg hw hc, hq.lightOf hg]

variable (sy : SymmetricAbout g.y g.ny b)
include sy

theorem FlipPop.expect (ch : Char) (φ : ℝ → ℝ) : q'.expect g L lw w ch φ (flipY g c) = q.expect g L lw w ch (fun u => φ (flipValue b ch u)) c := by
  unfold Pop.expect
  rw [hq.amount hg hw hc]
  refine congrArg (· / _) ?_
  by_cases h : ch = 'v'
  · subst h
    simp only [flipValue_v, if_true]
    rw [← sumTXZ_flipY]
    exact sumTXZ_has hg fun d hd => if_congr (coords_flip hw hc hd) (by rw [hq.vel _ d hd]; rfl) rfl
  · rw [if_neg h, if_neg h, ← sumCells_flipY, ← sumTXZ_flipY]
    refine if_congr Iff.rfl (sumCells_has fun d hd => ?_) (sumTXZ_has hg fun d hd => ?_)
    · exact if_congr (coords_flip hw hc hd) (by rw [hq.joint d hd, value_flip sy _ hd]; rfl) rfl
    · exact if_congr (coords_flip hw hc hd) (by unfold Pop.stars; rw [hq.vel _ d hd, value_flip sy _ hd]; rfl) rfl

variable (hP : q.Poly g) (hok : q.Ok g) (hL : ∀ t z, 0 ≤ L t z) (h0 : q.amount g L lw w c ≠ 0)
include hP hok hL h0

theorem FlipPop.mean {ch : Char} (hv : ch = 'v' → 'v' ∉ w) : q'.mean g L lw w ch (flipY g c) = flipValue b ch (q.mean g L lw w ch c) := by
  obtain ⟨E, hE, hp⟩ := hP.functional hg hok hL hv h0
  obtain ⟨s, hs⟩ := flipValue_eq b ch
  unfold Pop.mean
  rw [hq.expect hg hw hc sy, hs]
  simp only [hs]
  have e1 := hp (Polynomial.C s + flipSign ch • Polynomial.X)
  have e2 := hp Polynomial.X
  simp only [Polynomial.eval_add, Polynomial.eval_C, Polynomial.eval_smul, Polynomial.eval_X, smul_eq_mul] at e1 e2
  rw [← e1, ← e2, map_add, map_smul, smul_eq_mul]
  congr 1
  have : Polynomial.C s = s • (1 : Polynomial ℝ) := by rw [Polynomial.smul_eq_C_mul, mul_one]
  rw [this, map_smul, hE.one, smul_eq_mul, mul_one]

theorem FlipPop.central {ch : Char} (hv : ch = 'v' → 'v' ∉ w) (j : ℕ) :
    q'.central g L lw w ch j (flipY g c) = flipSign ch ^ j * q.central g L lw w ch j c := by
  obtain ⟨E, hE, hp⟩ := hP.functional hg hok hL hv h0
  obtain ⟨s, hs⟩ := flipValue_eq b ch
  unfold Pop.central
  rw [hq.expect hg hw hc sy, hq.mean hg hw hc sy hP hok hL h0 hv]
  simp only [hs]
  set μ := q.mean g L lw w ch c
  have e1 := hp ((flipSign ch ^ j) • (Polynomial.X - Polynomial.C μ) ^ j)
  have e2 := hp ((Polynomial.X - Polynomial.C μ) ^ j)
  simp only [Polynomial.eval_smul, Polynomial.eval_pow, Polynomial.eval_sub, Polynomial.eval_X, Polynomial.eval_C, smul_eq_mul] at e1 e2
  rw [map_smul, smul_eq_mul, e2] at e1
  rw [e1]
  congr 1
  funext u
  rw [← mul_pow]
  congr 1; ring

theorem FlipPop.givenCov {v v' ch ch' : Char} (hab : ValidPair [v, v'] w) (h1 : ch ∈ PyStr.replaceX [v]) (h2 : ch' ∈ PyStr.replaceX [v']) :
    q'.givenCov g L lw w ch ch' (flipY g c) = flipSign ch * flipSign ch' * q.givenCov g L lw w ch ch' c := by
  obtain ⟨p0, p1⟩ := validPair_sub hab
  have n1 : ch = 'v' → 'v' ∉ w := fun e => by obtain rfl := (mem_replaceX h1).1 e; exact noV_of_valid p0
  have n2 : ch' = 'v' → 'v' ∉ w := fun e => by obtain rfl := (mem_replaceX h2).1 e; exact noV_of_valid p1
  have uv : flipSign 'v' = 1 := by simp [flipSign]
  have bc : ∀ {u : Char}, (u = 'v' → 'v' ∉ w) → 'v' ∉ w → q'.binCov g L lw w u (flipY g c) = flipSign u * q.binCov g L lw w u c := by
    intro u hu hw'
    obtain ⟨s, hs⟩ := flipValue_eq b u
    unfold Pop.binCov
    rw [hq.mean hg hw hc sy hP hok hL h0 (fun _ => hw'), flipValue_v, hq.mean hg hw hc sy hP hok hL h0 hu, hq.lightOf hg, hq.marginal hg hw hc,
      ← mul_div_assoc, ← mul_div_assoc, mul_sumCells, ← sumCells_flipY]
    refine congrArg (fun x => x / _ / _) (sumCells_has fun d hd => ?_)
    refine (if_congr (coords_flip hw hc hd) ?_ (mul_zero _).symm).trans (mul_ite _ _ _ _).symm
    rw [hq.joint d hd, value_flip sy _ hd, hs, hs]
    show Pop.wt L lw d * ((centre g.v d.v - _) * _ * _) = _
    ring
  unfold Pop.givenCov
  by_cases hv : ch = 'v'
  · subst hv
    rw [if_pos rfl, if_pos rfl, bc n2 (n1 rfl), uv, one_mul]
  · rw [if_neg hv, if_neg hv]
    by_cases hv' : ch' = 'v'
    · subst hv'
      rw [if_pos rfl, if_pos rfl, bc n1 (n2 rfl), uv, mul_one]
    · rw [if_neg hv', if_neg hv']
      obtain ⟨s, hs⟩ := flipValue_eq b ch
      obtain ⟨s', hs'⟩ := flipValue_eq b ch'
      unfold Pop.cov
      rw [hq.mean hg hw hc sy hP hok hL h0 n1, hq.mean hg hw hc sy hP hok hL h0 n2]
      unfold Pop.expectOf
      rw [hq.amount hg hw hc, ← mul_div_assoc, mul_ite, mul_sumCells, ← sumTXZ_mul, ← sumCells_flipY, ← sumTXZ_flipY]
      refine congrArg (· / _) (if_congr Iff.rfl (sumCells_has fun d hd => ?_) (sumTXZ_has hg fun d hd => ?_))
      · refine (if_congr (coords_flip hw hc hd) ?_ (mul_zero _).symm).trans (mul_ite _ _ _ _).symm
        beta_reduce
        rw [hq.joint d hd, value_flip sy _ hd, value_flip sy _ hd, hs, hs, hs', hs']
        show Pop.wt L lw d * (_ * _) = _
        ring
      · refine (if_congr (coords_flip hw hc hd) ?_ (mul_zero _).symm).trans (mul_ite _ _ _ _).symm
        unfold Pop.stars
        beta_reduce
        rw [hq.vel _ d hd, value_flip sy _ hd, value_flip sy _ hd, hs, hs, hs', hs']
        show Pop.wt L lw d * (_ * _) = _
        ring

end

theorem div_sign (x y : ℝ) (hy : 0 ≤ y) : (Num.fin (-x) / Num.fin y : Num) = Num.neg (Num.fin x / Num.fin y) := by
  show Num.div _ _ = Num.neg (Num.div _ _)
  simp only [Num.div]
  by_cases h : y = 0
  · simp only [h, if_true]
    unfold Num.infSign
    rcases lt_trichotomy x 0 with hx | hx | hx
    · rw [if_pos (by linarith), if_neg (by linarith), if_pos hx]; rfl
    · subst hx; simp [Num.neg]
    · rw [if_neg (by linarith), if_pos (by linarith), if_pos hx]; rfl
  · simp only [h, if_false, Num.neg, neg_div]

/-! ### Lemmas: ingredients -/

/-- The densities in the mirror. -/
def Ingredients.flipped (m : Ingredients) (g : Grid) : Ingredients where
  pt := m.pt
  px t x y := m.px t x (g.ny - 1 - y)
  pz t x y z := m.pz t x (g.ny - 1 - y) z
  mu t x y := m.mu t x (g.ny - 1 - y)
  sig t x y := m.sig t x (g.ny - 1 - y)

section
variable (sy : SymmetricAbout g.y g.ny b) {c : Cell} (hc : g.Has c)
include hc

theorem flipped_probZ : (m.flipped g).probZ g (flipY g c) = m.probZ g c := by
  simp only [Ingredients.probZ, Ingredients.flipped, flipY, flip_flip hc.2.2.2.1]

theorem flipped_probV : (m.flipped g).probV g (flipY g c) = m.probV g c := by
  simp only [Ingredients.probV, Ingredients.flipped, flipY, flip_flip hc.2.2.2.1]

include sy

theorem flipped_probX : (m.flipped g).probX g (flipY g c) = m.probX g c := by
  simp only [Ingredients.probX, Ingredients.flipped, flipY, flip_flip hc.2.2.2.1, sy.width hc.2.2.2.1]

theorem flipped_probTXZ : (m.flipped g).probTXZ g (flipY g c) = m.probTXZ g c := by
  unfold Ingredients.probTXZ
  rw [flipped_probX sy hc, flipped_probZ hc]; rfl

theorem flipped_joint : (m.flipped g).joint g (flipY g c) = m.joint g c := by
  unfold Ingredients.joint
  rw [flipped_probTXZ sy hc, flipped_probV hc]

end

theorem flipped_pop (sy : SymmetricAbout g.y g.ny b) : FlipPop (m.pop g) ((m.flipped g).pop g) g where
  joint c hc := flipped_joint sy hc
  vel φ c hc := by
    show (m.flipped g).probTXZ g (flipY g c) * _ = m.probTXZ g c * _
    rw [flipped_probTXZ sy hc]
    simp only [Ingredients.flipped, flipY, flip_flip hc.2.2.2.1]

section
variable (sy : SymmetricAbout g.y g.ny b) (hg : g.Proper)
include sy hg

theorem flipped_total : Ingredients.sumTXZ g (fun d => L d.t d.z * (m.flipped g).probTXZ g d) = Ingredients.sumTXZ g (fun d => L d.t d.z * m.probTXZ g d) := by
  rw [← sumTXZ_flipY]
  exact sumTXZ_has hg fun d hd => by rw [flipped_probTXZ sy hd]; rfl

theorem flipped_totalV : g.sumCells (fun d => L d.t d.z * (m.flipped g).joint g d) = g.sumCells (fun d => L d.t d.z * m.joint g d) := by
  rw [← sumCells_flipY]
  exact sumCells_has fun d hd => by rw [flipped_joint sy hd]; rfl

theorem flipped_shines (h : Shines g m L) : Shines g (m.flipped g) L := by
  unfold Shines at h ⊢
  rw [flipped_total sy hg]
  exact h

theorem flipped_weightTXZ (lw : Bool) {c : Cell} (hc : g.Has c) : (m.flipped g).weightTXZ g L lw (flipY g c) = m.weightTXZ g L lw c := by
  unfold Ingredients.weightTXZ
  rw [flipped_probTXZ sy hc, flipped_total sy hg]; rfl

theorem flipped_weight (lw : Bool) {c : Cell} (hc : g.Has c) : (m.flipped g).weight g L lw (flipY g c) = m.weight g L lw c := by
  unfold Ingredients.weight
  rw [flipped_joint sy hc, flipped_totalV sy hg]; rfl

theorem flipped_marginal (lw : Bool) {w : PyStr} (hw : w ∈ [] :: marginals) {c : Cell} (hc : g.Has c) :
    (m.flipped g).marginal g L lw w (flipY g c) = m.marginal g L lw w c := by
  unfold Ingredients.marginal
  rw [← sumCells_flipY, ← sumTXZ_flipY]
  refine if_congr Iff.rfl (sumCells_has fun d hd => ?_) (sumTXZ_has hg fun d hd => ?_)
  · exact if_congr (coords_flip hw hc hd) (flipped_weight sy hg lw hd) rfl
  · exact if_congr (coords_flip hw hc hd) (flipped_weightTXZ sy hg lw hd) rfl

theorem flipped_marg (lw : Bool) {w : PyStr} (hw : w ∈ [] :: marginals) {c : Cell} (hc : g.Has c) :
    g.marg ((m.flipped g).weight g L lw) w (flipY g c) = g.marg (m.weight g L lw) w c := by
  unfold Grid.marg
  rw [← sumCells_flipY]
  refine sumCells_has fun d hd => ?_
  exact if_congr (coords_flip hw hc hd) (flipped_weight sy hg lw hd) rfl

end

/-! ### Lemmas: answers -/

section
variable (h : ParamIs p g m L) (h' : ParamIs p' g (m.flipped g) L) (hl : Shines g m L) (sy : SymmetricAbout g.y g.ny b)
include h h' hl sy

theorem flip_cond (density lw : Bool) {v w : PyStr} (hab : (v, w) ∈ conditionals) : ∃ q q', getP p.self (condStr v w) density lw = .ok q ∧
    getP p'.self (condStr v w) density lw = .ok q' ∧ q.shape = g.shapeOf v ++ g.shapeOf w ∧ q'.shape = g.shapeOf v ++ g.shapeOf w ∧ ∀ c, g.Has c →
      q'.get (coords v (flipY g c) ++ coords w (flipY g c)) = q.get (coords v c ++ coords w c) := by
  have hg := h.proper
  have hl' := flipped_shines sy hg hl
  have mm : ∀ {w : PyStr}, w ∈ marginals → ∀ {c}, g.Has c → (m.flipped g).marginal g L lw w (flipY g c) = m.marginal g L lw w c :=
    fun {w} hw {c} hc => flipped_marginal sy hg lw (List.mem_cons_of_mem _ hw) hc
  by_cases ho : (v, w) ∈ [(['x'],['t']), (['v'],['t','x']), (['z'],['t','x'])]
  · simp only [List.mem_cons, Prod.mk.injEq, List.not_mem_nil, or_false] at ho
    cases lw
    · obtain ⟨⟨q1, i1, i2, i3⟩, ⟨q2, j1, j2, j3⟩, ⟨q3, k1, k2, k3⟩⟩ := C32_ingredients h density
      obtain ⟨⟨q1', i1', i2', i3'⟩, ⟨q2', j1', j2', j3'⟩, ⟨q3', k1', k2', k3'⟩⟩ := C32_ingredients h' density
      rcases ho with ⟨rfl, rfl⟩ | ⟨rfl, rfl⟩ | ⟨rfl, rfl⟩
      · refine ⟨q1, q1', i1, i1', i2, i2', fun c hc => (i3' _ (flipY_has hc)).trans (Eq.trans ?_ (i3 c hc).symm)⟩
        rw [dens_flip sy density _ hc, flipped_probX sy hc]
      · refine ⟨q2, q2', j1, j1', j2, j2', fun c hc => (j3' _ (flipY_has hc)).trans (Eq.trans ?_ (j3 c hc).symm)⟩
        rw [dens_flip sy density _ hc, flipped_probV hc]
      · refine ⟨q3, q3', k1, k1', k2, k2', fun c hc => (k3' _ (flipY_has hc)).trans (Eq.trans ?_ (k3 c hc).symm)⟩
        rw [dens_flip sy density _ hc, flipped_probZ hc]
    · obtain ⟨⟨q1, i1, i2, i3⟩, ⟨q2, j1, j2, j3⟩, ⟨q3, k1, k2, k3⟩⟩ := C32_light_ingredients h density hl
      obtain ⟨⟨q1', i1', i2', i3'⟩, ⟨q2', j1', j2', j3'⟩, ⟨q3', k1', k2', k3'⟩⟩ := C32_light_ingredients h' density hl'
      rcases ho with ⟨rfl, rfl⟩ | ⟨rfl, rfl⟩ | ⟨rfl, rfl⟩
      · refine ⟨q1, q1', i1, i1', i2, i2', fun c hc => (i3' _ (flipY_has hc)).trans (Eq.trans ?_ (i3 c hc).symm)⟩
        rw [dens_flip sy density _ hc, mm (by decide) hc, mm (by decide) hc]
      · refine ⟨q2, q2', j1, j1', j2, j2', fun c hc => (j3' _ (flipY_has hc)).trans (Eq.trans ?_ (j3 c hc).symm)⟩
        rw [dens_flip sy density _ hc, mm (by decide) hc, flipped_marg sy hg true (by decide) hc]
      · refine ⟨q3, q3', k1, k1', k2, k2', fun c hc => (k3' _ (flipY_has hc)).trans (Eq.trans ?_ (k3 c hc).symm)⟩
        rw [dens_flip sy density _ hc, mm (by decide) hc, mm (by decide) hc]
  · obtain ⟨q, h1, h2, h3⟩ := C32_conditionals h density lw (fun _ => hl) v w hab ho
    obtain ⟨q', h1', h2', h3'⟩ := C32_conditionals h' density lw (fun _ => hl') v w hab ho
    obtain ⟨-, -, -, -, -, -, -, -, hb, hu⟩ := conditionals_letters (v, w) hab
    refine ⟨q, q', h1, h1', h2, h2', fun c hc => ?_⟩
    rw [h3' _ (flipY_has hc), h3 c hc, mm hb hc, mm hu hc, dens_flip sy density _ hc]

theorem flip_share {lw : Bool} {v w : PyStr} (hv : ValidPair v w) {A A' : Arr Num} (hA : getP p.self (distStr v w) false lw = .ok A)
    (hA' : getP p'.self (distStr v w) false lw = .ok A') {d : Cell} (hd : g.Has d) :
    A'.get (coords v (flipY g d) ++ coords w (flipY g d)) = A.get (coords v d ++ coords w d) := by
  rcases hv with ⟨rfl, hm⟩ | hab
  · obtain ⟨q, h1, -, h3⟩ := C32_marginals h false lw (fun _ => hl) v hm
    obtain ⟨q', h1', -, h3'⟩ := C32_marginals h' false lw (fun _ => flipped_shines sy h.proper hl) v hm
    obtain rfl : _ = A := Except.ok.inj (h1.symm.trans hA)
    obtain rfl : _ = A' := Except.ok.inj (h1'.symm.trans hA')
    have e0 : ∀ d, coords v d ++ coords [] d = coords v d := fun d => by simp [coords]
    rw [e0, e0, h3 d hd, h3' _ (flipY_has hd), flipped_marginal sy h.proper lw (List.mem_cons_of_mem _ hm) hd]
    rfl
  · obtain ⟨q, q', h1, h1', -, -, h3⟩ := flip_cond h h' hl sy false lw hab
    have ne : w ≠ [] := (by decide : ∀ vw ∈ conditionals, vw.2 ≠ []) _ hab
    rw [distStr, if_neg ne] at hA hA'
    obtain rfl : _ = A := Except.ok.inj (h1.symm.trans hA)
    obtain rfl : _ = A' := Except.ok.inj (h1'.symm.trans hA')
    exact h3 d hd

theorem ParamIs.mirrorImage (hf : p'.f2 = p.f2) : MirrorImage p p' g b := by
  have hg := h.proper
  have hl' := flipped_shines sy hg hl
  have hL := h.lightNonneg
  have fp : FlipPop (m.pop g) ((m.flipped g).pop g) g := flipped_pop sy
  have sh : (m.pop g).Shines g L := by
    unfold Pop.Shines Pop.lightOf
    rw [if_neg (by decide), ingr_stars]
    exact hl
  have sh' : ((m.flipped g).pop g).Shines g L := by
    unfold Pop.Shines Pop.lightOf
    rw [if_neg (by decide), ingr_stars]
    exact hl'
  have at' : p.f2 = 1 → ∀ lw w, PopAt (obj p'.self) ((m.flipped g).pop g) g L lw w (fun _ => True) (fun c => ((m.flipped g).pop g).amount g L lw w c ≠ 0) :=
    fun e lw w => h'.popAt (hf.trans e) (fun _ => sh') w
  have atp : p.f2 = 1 → ∀ lw w, PopAt (obj p.self) (m.pop g) g L lw w (fun _ => True) (fun c => (m.pop g).amount g L lw w c ≠ 0) :=
    fun e lw w => h.popAt e (fun _ => sh) w
  have ne : ∀ {lw v w c}, ValidPair v w → g.Has c → Populated p lw w c → (m.pop g).amount g L lw w c ≠ 0 := fun hv hc hp =>
    marginal_amount _ _ _ (hp.ne h hl (valid_conditioners hv) hc)
  have ne' : ∀ {lw v w c}, ValidPair v w → g.Has c → Populated p lw w c → ((m.flipped g).pop g).amount g L lw w (flipY g c) ≠ 0 := fun hv hc hp => by
    rw [fp.amount hg (valid_conditioners hv) hc]; exact ne hv hc hp
  have hP : (m.pop g).Poly g := ingr_poly m h.pop_ok
  refine ⟨fun density lw w hw => ?_, fun density lw v w hab => flip_cond h h' hl sy density lw hab, fun e lw w q hq hv => ?_, fun e lw w j q hq hv => ?_,
    fun e lw w v v' hv => ?_, fun e lw w v v' hv => ?_, fun lw w j hj q hq hv => ?_, fun sp S n hn hS batch hb => ?_⟩
  · obtain ⟨q, h1, h2, h3⟩ := C32_marginals h density lw (fun _ => hl) w hw
    obtain ⟨q', h1', h2', h3'⟩ := C32_marginals h' density lw (fun _ => hl') w hw
    refine ⟨q, q', h1, h1', h2, h2', fun c hc => ?_⟩
    rw [h3' _ (flipY_has hc), h3 c hc, flipped_marginal sy hg lw (List.mem_cons_of_mem _ hw) hc, dens_flip sy density _ hc]
  · obtain ⟨k1, k2, -⟩ := quantity_facts hq
    obtain ⟨M, F, e1, i, v⟩ := (atp e lw w).mean _ hv k1
    obtain ⟨M', F', e1', i', v'⟩ := (at' e lw w).mean _ hv k1
    refine ⟨M, M', e1, e1', i.1, i'.1.trans i.1.symm, fun c hc hp => ⟨_, (i.2 q k2 c hc).trans (v q k2 c hc (ne hv hc hp)), ?_⟩⟩
    rw [i'.2 q k2 _ (flipY_has hc), v' q k2 _ (flipY_has hc) (ne' hv hc hp), fp.mean hg (valid_conditioners hv) hc sy hP h.pop_ok hL (ne hv hc hp)]
    rintro rfl; exact noV_of_valid hv
  · obtain ⟨k1, k2, -⟩ := quantity_facts hq
    obtain ⟨M, F, e1, i, v⟩ := (atp e lw w).central _ hv k1 trivial j
    obtain ⟨M', F', e1', i', v'⟩ := (at' e lw w).central _ hv k1 trivial j
    refine ⟨M, M', e1, e1', i.1, i'.1.trans i.1.symm, fun c hc hp => ⟨_, (i.2 q k2 c hc).trans (v q k2 c hc (ne hv hc hp)), ?_⟩⟩
    rw [i'.2 q k2 _ (flipY_has hc), v' q k2 _ (flipY_has hc) (ne' hv hc hp), fp.central hg (valid_conditioners hv) hc sy hP h.pop_ok hL (ne hv hc hp)]
    rintro rfl; exact noV_of_valid hv
  · obtain ⟨r, r1, r2, r3⟩ := (atp e lw w).covariance hv
    obtain ⟨r', r1', r2', r3'⟩ := (at' e lw w).covariance hv
    refine ⟨r, r', r1, r1', r2, r2'.trans r2.symm, fun q hq q' hq' c hc hp => ⟨_, r3 q hq q' hq' c hc (ne hv hc hp), ?_⟩⟩
    rw [r3' q hq q' hq' _ (flipY_has hc) (ne' hv hc hp), fp.givenCov hg (valid_conditioners hv) hc sy hP h.pop_ok hL (ne hv hc hp) hv hq hq']
  · obtain ⟨r, r1, r2, r3⟩ := (atp e lw w).correlation hv trivial trivial
    obtain ⟨r', r1', r2', r3'⟩ := (at' e lw w).correlation hv trivial trivial
    refine ⟨r, r', r1, r1', r2, r2'.trans r2.symm, fun q hq q' hq' c hc hp => ?_⟩
    have h0 := ne hv hc hp
    have hw := valid_conditioners hv
    obtain ⟨p0, p1⟩ := validPair_sub hv
    have n1 : q = 'v' → 'v' ∉ w := fun e => by obtain rfl := (mem_replaceX hq).1 e; exact noV_of_valid p0
    have n2 : q' = 'v' → 'v' ∉ w := fun e => by obtain rfl := (mem_replaceX hq').1 e; exact noV_of_valid p1
    rw [r3 q hq q' hq' c hc h0, r3' q hq q' hq' _ (flipY_has hc) (ne' hv hc hp), fp.givenCov hg hw hc sy hP h.pop_ok hL h0 hv hq hq']
    unfold Pop.variance
    rw [fp.central hg hw hc sy hP h.pop_ok hL h0 n1, fp.central hg hw hc sy hP h.pop_ok hL h0 n2, flipSign_sq, flipSign_sq, one_mul, one_mul]
    by_cases y1 : q = 'y' <;> by_cases y2 : q' = 'y' <;> simp only [flipSign, y1, y2, if_true, if_false, iff_true, true_iff, iff_false, not_true, not_false_eq_true,
      mul_one, one_mul, neg_mul, neg_neg]
    · exact div_sign _ _ (Real.sqrt_nonneg _)
    · exact div_sign _ _ (Real.sqrt_nonneg _)
  · obtain ⟨A, r, e1, e2, e3, e4⟩ := C68_l_moments_of_distribution (lw := lw) h (fun _ => sh) q hq w hv j hj
    obtain ⟨A', r', e1', e2', e3', e4'⟩ := C68_l_moments_of_distribution (lw := lw) h' (fun _ => sh') q hq w hv j hj
    refine ⟨A, r, r', e1, e2, e2', e3, e3', fun c hc hA => ?_⟩
    have all : ∀ i, ∃ u : ℝ, i < g.bins q → A.get (i :: coords w c) = .fin u ∧ A'.get (i :: coords w (flipY g c)) = .fin u := fun i => by
      by_cases hi : i < g.bins q
      · obtain ⟨d, hd, d1, d2⟩ := cell_at hv hq hc hi
        have s := flip_share h h' hl sy hv e1 e1' hd
        have d3 : coords [q] (flipY g d) = [i] := by
          rw [← d1]
          simp only [List.mem_cons, List.not_mem_nil, or_false] at hq
          rcases hq with rfl | rfl | rfl <;> rfl
        have d4 := (coords_flip (valid_conditioners hv) hc hd).2 d2
        rw [d1, d2, d3, d4, List.singleton_append, List.singleton_append] at s
        have fin : ∃ u : ℝ, A.get (i :: coords w c) = .fin u := by
          have := units_share h (k := 1) (a := 0) (b := 0) (p' := p) (by
            have e1 : m.rescaled 1 = m := by unfold Ingredients.rescaled; simp
            have e2 : g.similar 1 0 0 = g := by unfold Grid.similar; simp
            rw [e1, e2]; exact h) hl one_pos hv (hd := hd) (by
              simp only [List.mem_cons, List.not_mem_nil, or_false] at hq; rcases hq with rfl | rfl | rfl <;> decide) e1 e1
          rw [d1, d2, List.singleton_append] at this
          rcases this with e | ⟨u, e, -⟩
          · exact absurd e (hA i hi)
          · exact ⟨u, e⟩
        obtain ⟨u, e⟩ := fin
        exact ⟨u, fun _ => ⟨e, s.trans e⟩⟩
      · exact ⟨0, fun h => absurd h hi⟩
    choose π hπ using all
    rw [e4 c hc π fun i hi => (hπ i hi).1, e4' _ (flipY_has hc) π fun i hi => (hπ i hi).2]
  · obtain ⟨⟨y1, a1, b1⟩, e2, e3, -⟩ := Param.evaluateYbar_is h hn hS
    obtain ⟨⟨y1', a1', b1'⟩, e2', e3', -⟩ := Param.evaluateYbar_is h' hn hS
    obtain ⟨y2, a2, b2⟩ := e2 rfl
    obtain ⟨y3, a3, b3⟩ := e3 rfl
    obtain ⟨y2', a2', b2'⟩ := e2' rfl
    obtain ⟨y3', a3', b3'⟩ := e3' rfl
    have eq : ∀ w, ∀ i < g.nx, ∀ j < g.ny, Param.ybarOf g (m.flipped g) sp S n n w i (g.ny - 1 - j) = Param.ybarOf g m sp S n n w i j := by
      intro w i hi j hj
      have e : ∀ t < g.nt, ∀ z < g.nz, (m.flipped g).probTXZ g ⟨t, 0, i, g.ny - 1 - j, z⟩ = m.probTXZ g ⟨t, 0, i, j, z⟩ := fun t ht z hz =>
        flipped_probTXZ sy (c := ⟨t, 0, i, j, z⟩) ⟨ht, hg.nv, hi, hj, hz⟩
      unfold Param.ybarOf Param.ybarAt
      refine congrArg (fun φ => Fft.irfft n φ w) (funext fun k => ?_)
      unfold Param.spaxelFT
      refine Finset.sum_congr rfl fun z hz => Finset.sum_congr rfl fun t ht => ?_
      beta_reduce
      rw [e t (Finset.mem_range.1 ht) z (Finset.mem_range.1 hz)]
      simp only [Ingredients.flipped, flip_flip hj]
    have go : ∀ {y y' : Arr Num}, Is3 y n g.nx g.ny (fun w i j => .fin (Param.ybarOf g m sp S n n w i j)) →
        Is3 y' n g.nx g.ny (fun w i j => .fin (Param.ybarOf g (m.flipped g) sp S n n w i j)) → y.shape = [n, g.nx, g.ny] ∧ y'.shape = [n, g.nx, g.ny] ∧
        ∀ w < n, ∀ i < g.nx, ∀ j < g.ny, y'.get [w, i, g.ny - 1 - j] = y.get [w, i, j] := fun h1 h2 =>
      ⟨h1.1, h2.1, fun w hw i hi j hj => 
        (h2.2 w hw i hi (g.ny - 1 - j) (by omega)).trans ((congrArg Num.fin (eq w i hi j hj)).trans (h1.2 w hw i hi j hj).symm)⟩
    simp only [List.mem_cons, List.not_mem_nil, or_false] at hb
    rcases hb with rfl | rfl | rfl
    · exact ⟨y1, y1', a1, a1', go b1 b1'⟩
    · exact ⟨y2, y2', a2, a2', go b2 b2'⟩
    · exact ⟨y3, y3', a3, a3', go b3 b3'⟩

end

/-! ### Lemmas: the frame of a component -/

section
variable (sy : SymmetricAbout g.y g.ny center.2) {c : Cell} (hc : g.Has c)
include sy hc

theorem frame_flip : frameX g center (-rotation) c = frameX g center rotation (flipY g c) ∧
    frameY g center (-rotation) c = -frameY g center rotation (flipY g c) := by
  have h2 := sy.centre hc.2.2.2.1
  unfold frameX frameY flipY
  dsimp only
  rw [h2, Real.cos_neg, Real.sin_neg]
  constructor <;> ring

theorem ellR_flip (q : ℝ) : ellR g center (-rotation) q c = ellR g center rotation q (flipY g c) := by
  unfold ellR
  rw [(frame_flip sy hc).1, (frame_flip sy hc).2, neg_div, neg_sq]

theorem coredRho_flip (s e : ℝ) (q rc alpha : ℝ × ℝ) :
    coredRho g center (-rotation) s e q rc alpha c = coredRho g center rotation s e q rc alpha (flipY g c) := by
  unfold coredRho
  rw [ellR_flip sy hc]; rfl

theorem pixTotal_flip (s e : ℝ) (q rc alpha : ℝ × ℝ) : pixTotal g (coredRho g center (-rotation) s e q rc alpha) c =
    pixTotal g (coredRho g center rotation s e q rc alpha) (flipY g c) := by
  unfold pixTotal
  refine Finset.sum_congr rfl fun i _ => ?_
  have e1 := sum_rev (n := g.ny) (fun j => coredRho g center rotation s e q rc alpha { flipY g c with x := i, y := j } * (width g.x i * width g.y j))
  refine Eq.trans ?_ e1
  refine Finset.sum_congr rfl fun j _ => ?_
  rw [coredRho_flip sy (c := { c with x := i, y := j }) ⟨hc.1, hc.2.1, i.2, j.2, hc.2.2.2.2⟩, sy.width j.2]; rfl

theorem diskMu_flip (s e : ℝ) (q rmax vmax : ℝ × ℝ) :
    diskMu g center (-rotation) s e q rmax vmax c = diskMu g center rotation s e q rmax vmax (flipY g c) := by
  unfold diskMu
  rw [ellR_flip sy hc, (frame_flip sy hc).1]; rfl

theorem diskSig_flip (s e u : ℝ) (q alpha sIn sOut : ℝ × ℝ) :
    diskSig g center (-rotation) s e u q alpha sIn sOut c = diskSig g center rotation s e u q alpha sIn sOut (flipY g c) := by
  unfold diskSig
  rw [ellR_flip sy hc]; rfl

theorem streamW_flip (hg : g.Proper) {theta muR : ℝ × ℝ} {sig : ℝ} (hσ : 0 < sig) (n : ℕ) :
    streamW g center (-rotation) (-theta.1, -theta.2) muR sig n c = streamW g center rotation theta muR sig n (flipY g c) := by
  have hh : 0 < width g.y c.y := sub_pos.2 (hg.y _ hc.2.2.2.1)
  unfold streamW
  refine Finset.sum_congr rfl fun k _ => ?_
  have e1 : trackTheta (-theta.1, -theta.2) n k = -trackTheta theta n k := by
    unfold trackTheta Stream.linspaceR; dsimp only; ring
  have e2 : trackR (-theta.1, -theta.2) muR n k = trackR theta muR n k := by
    unfold trackR
    rw [e1]
    dsimp only
    rw [show -trackTheta theta n k - -theta.1 = -(trackTheta theta n k - theta.1) by ring, show -theta.2 - -theta.1 = -(theta.2 - theta.1) by ring, neg_div_neg_eq]
  rw [e1, e2, (frame_flip sy hc).1, (frame_flip sy hc).2, Real.cos_neg, Real.sin_neg]
  have e3 : width g.y (flipY g c).y = width g.y c.y := sy.width hc.2.2.2.1
  have e4 : width g.x (flipY g c).x = width g.x c.x := rfl
  rw [e3, e4, ← normal_Ioc_neg hσ (show frameY g center rotation (flipY g c) - width g.y c.y / 2 ≤ frameY g center rotation (flipY g c) + width g.y c.y / 2 by linarith)]
  ring_nf

theorem streamMu_flip (hax : ¬ (frameX g center (-rotation) c < 0 ∧ frameY g center (-rotation) c = 0)) (theta lims : ℝ × ℝ) :
    streamMu g center (-rotation) (-theta.1, -theta.2) lims c = streamMu g center rotation theta lims (flipY g c) := by
  have e : frameTheta g center (-rotation) c = -frameTheta g center rotation (flipY g c) := by
    unfold frameTheta
    obtain ⟨h1, h2⟩ := frame_flip (rotation := rotation) sy hc
    rw [h1, h2] at hax ⊢
    have : (⟨frameX g center rotation (flipY g c), -frameY g center rotation (flipY g c)⟩ : ℂ) =
        (starRingEnd ℂ) ⟨frameX g center rotation (flipY g c), frameY g center rotation (flipY g c)⟩ := rfl
    rw [this, Complex.arg_conj, if_neg]
    rw [Complex.arg_eq_pi_iff]
    exact fun h => hax ⟨h.1, by rw [show frameY g center rotation (flipY g c) = 0 from h.2, neg_zero]⟩
  unfold streamMu alongTrack
  rw [e]
  dsimp only
  rw [show -frameTheta g center rotation (flipY g c) - -theta.1 = -(frameTheta g center rotation (flipY g c) - theta.1) by ring,
    show -theta.2 - -theta.1 = -(theta.2 - theta.1) by ring, neg_div_neg_eq]

end

section
variable (sy : SymmetricAbout g.y g.ny center.2)
include sy

theorem streamTotal_flip (hg : g.Proper) {theta muR : ℝ × ℝ} {sig : ℝ} (hσ : 0 < sig) (n : ℕ) :
    streamTotal g center (-rotation) (-theta.1, -theta.2) muR sig n = streamTotal g center rotation theta muR sig n := by
  unfold streamTotal
  refine Finset.sum_congr rfl fun i _ => ?_
  rw [← sum_rev (n := g.ny) (fun j => streamW g center rotation theta muR sig n ⟨0, 0, i, j, 0⟩)]
  exact Finset.sum_congr rfl fun j _ => streamW_flip sy (c := ⟨0, 0, i, j, 0⟩) ⟨hg.nt, hg.nv, i.2, j.2, hg.nz⟩ hg hσ n

theorem maxX_flip {u : ℝ} (h : MaxX g center rotation u) : MaxX g center (-rotation) u := by
  obtain ⟨⟨c, hc, e⟩, hu⟩ := h
  refine ⟨⟨flipY g c, flipY_has hc, ?_⟩, fun c hc => ?_⟩
  · rw [(frame_flip sy (flipY_has hc)).1, flipY_flipY hc, e]
  · rw [(frame_flip sy hc).1]
    exact hu _ (flipY_has hc)

theorem off_flip (hx : ∃ c, g.Has c ∧ frameX g center rotation c ≠ 0) : ∃ c, g.Has c ∧ frameX g center (-rotation) c ≠ 0 := by
  obtain ⟨c, hc, h⟩ := hx
  exact ⟨flipY g c, flipY_has hc, by rw [(frame_flip sy (flipY_has hc)).1, flipY_flipY hc]; exact h⟩

end

/-! ### Lemmas: histories -/

/-- The stored arrays are the same, but for the mirror. -/
structure Flipped (p p' : Param) (g : Grid) : Prop where
  ssps : p'.cube.ssps = p.cube.ssps
  f2 : p'.f2 = p.f2
  zGrid : p'.zGrid = p.zGrid
  tPars : p'.tPars = p.tPars
  logPt : p'.logPt = p.logPt
  space : ∀ A, p.logPxt = some A → ∃ (A' : Arr Num) (F : Cell → Num), p'.logPxt = some A' ∧
    MArr g (['x','y','t'].map some) A F ∧ MArr g (['x','y','t'].map some) A' (fun c => F (flipY g c))
  metal : ∀ A, p.logPztx = some A → ∃ (A' : Arr Num) (F : Cell → Num), p'.logPztx = some A' ∧
    MArr g (['z','t','x','y'].map some) A F ∧ MArr g (['z','t','x','y'].map some) A' (fun c => F (flipY g c))
  mean : ∀ A, p.muV = some A → ∃ (A' : Arr Num) (F : Cell → Num), p'.muV = some A' ∧
    MArr g (['t','x','y'].map some) A F ∧ MArr g (['t','x','y'].map some) A' (fun c => F (flipY g c))
  disp : ∀ A, p.sigV = some A → ∃ (A' : Arr Num) (F : Cell → Num), p'.sigV = some A' ∧
    MArr g (['t','x','y'].map some) A F ∧ MArr g (['t','x','y'].map some) A' (fun c => F (flipY g c))

theorem Flipped.setPt (hU : Flipped p p' g) {lmd phi : ℝ} {q : ℝ × ℝ} {p1 p1' : Param} (hr : p.setPt lmd phi q = .ok p1)
    (hr' : p'.setPt lmd phi q = .ok p1') : Flipped p1 p1' g := by
  obtain ⟨e1, e2⟩ := setPt_units hU.ssps hr
  obtain rfl : _ = p1' := Except.ok.inj (e2.symm.trans hr')
  rw [e1]
  exact ⟨hU.ssps, hU.f2, hU.zGrid, rfl, rfl, hU.space, hU.metal, hU.mean, hU.disp⟩

theorem Flipped.disk (h : Sound p g f2 center rotation) (h' : Sound p' g f2 center (-rotation)) (hU : Flipped p p' g)
    (sy : SymmetricAbout g.y g.ny center.2) (hg : g.Proper) (hx : ∃ c, g.Has c ∧ frameX g center rotation c ≠ 0) (c : DiskCall) (hv : c.Valid)
    (ht : p.logPt ≠ none ∨ c.field = .age ∨ c.field = .metal) {p1 p1' : Param} (hr : c.run p = .ok p1) (hr' : c.run p' = .ok p1') :
    Flipped p1 p1' g := by
  obtain ⟨u, -, hm⟩ := h.built.amax hg
  have hm0 : 0 < u := by
    obtain ⟨c, hc, hne⟩ := hx
    exact (abs_pos.2 hne).trans_le (hm.2 c hc)
  have hm' := maxX_flip sy hm
  have hA : ∀ {s e : ℝ}, Aged p s e → Aged p' s e := fun h => ⟨hU.tPars.trans h.1, h.2⟩
  cases c with
  | setPt lmd phi q => exact hU.setPt hr hr'
  | setPxt q rc alpha =>
    obtain ⟨s, e, ha⟩ := h.aged (by simpa [DiskCall.field] using ht)
    obtain ⟨v1, v2, v3⟩ := hv
    obtain ⟨A, k1, k2⟩ := disk_setPxt h.built hg ha v1 v2 v3
    obtain ⟨A', k1', k2'⟩ := disk_setPxt h'.built hg (hA ha) v1 v2 v3
    obtain rfl : _ = p1 := Except.ok.inj (k1.symm.trans hr)
    obtain rfl : _ = p1' := Except.ok.inj (k1'.symm.trans hr')
    refine ⟨hU.ssps, hU.f2, hU.zGrid, hU.tPars, hU.logPt, fun B hB => ?_, hU.metal, hU.mean, hU.disp⟩
    cases hB
    refine ⟨A', _, rfl, k2, k2'.congr fun c hc => ?_⟩
    rw [coredRho_flip sy hc, pixTotal_flip sy hc]
  | setTDep q alpha tIn tOut tMin tMax =>
    obtain ⟨v1, v2, v3, v4, v5, v6⟩ := hv
    obtain ⟨A, B, k1, k3, k2⟩ := disk_setTDep h.built hg v1 v2 v3 v4 v5 v6 hm hm0
    obtain ⟨A', B', k1', k3', k2'⟩ := disk_setTDep h'.built hg v1 v2 v3 v4 v5 v6 hm' hm0
    obtain rfl : _ = p1 := Except.ok.inj (k1.symm.trans hr)
    obtain rfl : _ = p1' := Except.ok.inj (k1'.symm.trans hr')
    refine ⟨hU.ssps, hU.f2, hU.zGrid, hU.tPars, hU.logPt, hU.space, fun B hB => ?_, hU.mean, hU.disp⟩
    cases hB
    refine ⟨B', _, rfl, k2, k2'.congr fun c hc => ?_⟩
    have e : A'.get [c.x, c.y] = A.get [(flipY g c).x, (flipY g c).y] := by
      have j1 := k3.2 _ (flipY_has hc)
      have j2 := k3'.2 c hc
      beta_reduce at j1 j2
      rw [ellR_flip sy hc] at j2
      exact Eq.trans j2 j1.symm
    rw [e, hU.zGrid]; rfl
  | setMuV q rmax vmax =>
    obtain ⟨s, e, ha⟩ := h.aged (by simpa [DiskCall.field] using ht)
    obtain ⟨v1, v2, v3⟩ := hv
    obtain ⟨A, k1, k2⟩ := disk_setMuV h.built ha v1 v2 v3
    obtain ⟨A', k1', k2'⟩ := disk_setMuV h'.built (hA ha) v1 v2 v3
    obtain rfl : _ = p1 := Except.ok.inj (k1.symm.trans hr)
    obtain rfl : _ = p1' := Except.ok.inj (k1'.symm.trans hr')
    refine ⟨hU.ssps, hU.f2, hU.zGrid, hU.tPars, hU.logPt, hU.space, hU.metal, fun B hB => ?_, hU.disp⟩
    cases hB
    refine ⟨A', _, rfl, k2, k2'.congr fun c hc => ?_⟩
    rw [diskMu_flip sy hc]
  | setSigV q alpha sIn sOut =>
    obtain ⟨s, e, ha⟩ := h.aged (by simpa [DiskCall.field] using ht)
    obtain ⟨v1, v2, v3, v4⟩ := hv
    obtain ⟨A, k1, k2⟩ := disk_setSigV h.built hg ha v1 v2 v3 v4 hm hm0
    obtain ⟨A', k1', k2'⟩ := disk_setSigV h'.built hg (hA ha) v1 v2 v3 v4 hm' hm0
    obtain rfl : _ = p1 := Except.ok.inj (k1.symm.trans hr)
    obtain rfl : _ = p1' := Except.ok.inj (k1'.symm.trans hr')
    refine ⟨hU.ssps, hU.f2, hU.zGrid, hU.tPars, hU.logPt, hU.space, hU.metal, hU.mean, fun B hB => ?_⟩
    cases hB
    refine ⟨A', _, rfl, k2, k2'.congr fun c hc => ?_⟩
    rw [diskSig_flip sy hc]

theorem Flipped.calls (sy : SymmetricAbout g.y g.ny center.2) (hg : g.Proper) (hx : ∃ c, g.Has c ∧ frameX g center rotation c ≠ 0) :
    ∀ (ks : List DiskCall) (p p' p1 : Param), Sound p g f2 center rotation → Sound p' g f2 center (-rotation) → Flipped p p' g →
      (∀ c ∈ ks, c.Valid) → runAll DiskCall.run p ks = .ok p1 → ∃ p1', runAll DiskCall.run p' ks = .ok p1' ∧
        Sound p1 g f2 center rotation ∧ Sound p1' g f2 center (-rotation) ∧ Flipped p1 p1' g ∧ p1.cube = p.cube
  | [], p, p', p1, h, h', hU, _, hr => by cases hr; exact ⟨p', rfl, h, h', hU, rfl⟩
  | c :: ks, p, p', p1, h, h', hU, hv, hr => by
    have hc := hv c List.mem_cons_self
    have : (DiskCall.run p c >>= fun q => runAll DiskCall.run q ks) = .ok p1 := hr
    by_cases ht : p.logPt ≠ none ∨ c.field = .age ∨ c.field = .metal
    · obtain ⟨p2, k1, k2⟩ := h.disk hg hx c hc ht
      obtain ⟨p2', k1', k2'⟩ := h'.disk hg (off_flip sy hx) c hc (by rw [hU.logPt]; exact ht)
      rw [k1] at this
      obtain ⟨p1', e1, e2, e3, e4, e5⟩ := Flipped.calls sy hg hx ks p2 p2' p1 k2 k2' (Flipped.disk h h' hU sy hg hx c hc ht k1 k1')
        (fun c' hc' => hv c' (List.mem_cons_of_mem _ hc')) this
      refine ⟨p1', ?_, e2, e3, e4, e5.trans (disk_writes k1).cube⟩
      show (c.run p' >>= fun q => runAll DiskCall.run q ks) = .ok p1'
      rw [k1']; exact e1
    · push Not at ht
      rw [h.disk_early c hc ht.1 ht.2] at this
      cases this

theorem flipped_valid {c : StreamCall} (h : c.Valid) : c.flipped.Valid := by
  cases c with
  | setPxt theta muR sig n =>
    obtain ⟨⟨a1, a2⟩, ⟨b1, b2⟩, h3, h4⟩ := h
    exact ⟨⟨by show -Real.pi ≤ -theta.1; linarith, by show -theta.1 ≤ Real.pi; linarith⟩, ⟨by show -Real.pi ≤ -theta.2; linarith,
      by show -theta.2 ≤ Real.pi; linarith⟩, fun e => h3 (neg_injective e), h4⟩
  | _ => exact h

theorem flipped_field (c : StreamCall) : c.flipped.field = c.field := by cases c <;> rfl

/-- No pixel centre is on the half line where the angle of a stream jumps from π to -π. -/
def OffCut (g : Grid) (center : ℝ × ℝ) (rotation : ℝ) : Prop := ∀ c, g.Has c → ¬ (frameX g center rotation c < 0 ∧ frameY g center rotation c = 0)

theorem OffCut.neg (h : OffCut g center rotation) (sy : SymmetricAbout g.y g.ny center.2) : OffCut g center (-rotation) := by
  intro c hc
  rw [(frame_flip sy hc).1, (frame_flip sy hc).2, neg_eq_zero]
  exact h _ (flipY_has hc)

theorem Flipped.stream {s s' s1 s1' : Stream} (h : SoundStream s g f2 center rotation) (h' : SoundStream s' g f2 center (-rotation))
    (hU : Flipped s.base s'.base g) (hθ : s'.thetaLims = s.thetaLims.map fun θ => (-θ.1, -θ.2)) (sy : SymmetricAbout g.y g.ny center.2) (hg : g.Proper)
    (c : StreamCall) (hax : c.field = .mean → OffCut g center rotation) (hv : c.Valid) (ht : s.base.logPxt ≠ none ∨ c.field ≠ .mean) (hr : c.run s = .ok s1) (hr' : c.flipped.run s' = .ok s1') :
    Flipped s1.base s1'.base g ∧ s1'.thetaLims = s1.thetaLims.map fun θ => (-θ.1, -θ.2) := by
  cases c with
  | setPt lmd phi q =>
    obtain ⟨p1, j1, j2⟩ := bind_ok hr
    obtain ⟨p1', j1', j2'⟩ := bind_ok hr'
    cases j2
    cases j2'
    exact ⟨hU.setPt j1 j1', hθ⟩
  | setPxt theta muR sig n =>
    obtain ⟨w1, w2, w3, w4, w5⟩ := flipped_valid hv
    obtain ⟨v1, v2, v3, v4, v5⟩ := hv
    obtain ⟨A, k1, k2⟩ := stream_setPxt h.base.built hg (muR := muR) (le_min v1.1 v2.1) (max_le v1.2 v2.2) v3 v4 v5
    obtain ⟨A', k1', k2'⟩ := stream_setPxt h'.base.built hg (theta := (-theta.1, -theta.2)) (muR := muR) (le_min w1.1 w2.1) (max_le w1.2 w2.2) w3 v4 v5
    obtain rfl : _ = s1 := Except.ok.inj (k1.symm.trans hr)
    obtain rfl : _ = s1' := Except.ok.inj (k1'.symm.trans hr')
    refine ⟨⟨hU.ssps, hU.f2, hU.zGrid, hU.tPars, hU.logPt, fun B hB => ?_, hU.metal, hU.mean, hU.disp⟩, rfl⟩
    cases hB
    refine ⟨A', _, rfl, k2, k2'.congr fun c hc => ?_⟩
    rw [streamW_flip sy hc hg v4, streamTotal_flip sy hg v4]
    rw [show width g.y (flipY g c).y = width g.y c.y from sy.width hc.2.2.2.1]; rfl
  | setTDep τ =>
    obtain ⟨B, k1, k2⟩ := stream_setTDep h.base.built hg τ
    obtain ⟨B', k1', k2'⟩ := stream_setTDep h'.base.built hg τ
    obtain rfl : _ = s1 := Except.ok.inj (k1.symm.trans hr)
    obtain rfl : _ = s1' := Except.ok.inj (k1'.symm.trans hr')
    refine ⟨⟨hU.ssps, hU.f2, hU.zGrid, hU.tPars, hU.logPt, hU.space, fun B hB => ?_, hU.mean, hU.disp⟩, hθ⟩
    cases hB
    refine ⟨B', _, rfl, k2, k2'.congr fun c hc => ?_⟩
    rw [hU.zGrid]; rfl
  | setMuV lims =>
    have h1 : s.base.logPxt ≠ none := by simpa [StreamCall.field] using ht
    obtain ⟨θ, e⟩ := Option.ne_none_iff_exists'.1 fun e => h1 (h.space.1 e)
    have hn := h.theta θ e
    have e' : s'.thetaLims = some (-θ.1, -θ.2) := by rw [hθ, e]; rfl
    obtain ⟨A, k1, k2⟩ := stream_setMuV h.base.built (lims := lims) e hn
    obtain ⟨A', k1', k2'⟩ := stream_setMuV h'.base.built (lims := lims) e' (fun e => hn (neg_injective e))
    obtain rfl : _ = s1 := Except.ok.inj (k1.symm.trans hr)
    obtain rfl : _ = s1' := Except.ok.inj (k1'.symm.trans hr')
    refine ⟨⟨hU.ssps, hU.f2, hU.zGrid, hU.tPars, hU.logPt, hU.space, hU.metal, fun B hB => ?_, hU.disp⟩, hθ⟩
    cases hB
    refine ⟨A', _, rfl, k2, k2'.congr fun c hc => ?_⟩
    rw [streamMu_flip sy hc ((hax rfl).neg sy c hc)]
  | setSigV sigV =>
    obtain ⟨A, k1, k2⟩ := stream_setSigV h.base.built sigV
    obtain ⟨A', k1', k2'⟩ := stream_setSigV h'.base.built sigV
    obtain rfl : _ = s1 := Except.ok.inj (k1.symm.trans hr)
    obtain rfl : _ = s1' := Except.ok.inj (k1'.symm.trans hr')
    refine ⟨⟨hU.ssps, hU.f2, hU.zGrid, hU.tPars, hU.logPt, hU.space, hU.metal, hU.mean, fun B hB => ?_⟩, hθ⟩
    cases hB
    exact ⟨A', _, rfl, k2, k2'⟩

theorem Flipped.streamCalls (sy : SymmetricAbout g.y g.ny center.2) (hg : g.Proper) (hax : OffCut g center rotation) :
    ∀ (ks : List StreamCall) (s s' s1 : Stream), SoundStream s g f2 center rotation →
    SoundStream s' g f2 center (-rotation) → Flipped s.base s'.base g → (s'.thetaLims = s.thetaLims.map fun θ => (-θ.1, -θ.2)) → (∀ c ∈ ks, c.Valid) →
    runAll StreamCall.run s ks = .ok s1 → ∃ s1', runAll StreamCall.run s' (ks.map StreamCall.flipped) = .ok s1' ∧
      SoundStream s1 g f2 center rotation ∧ SoundStream s1' g f2 center (-rotation) ∧ Flipped s1.base s1'.base g ∧ s1.base.cube = s.base.cube
  | [], s, s', s1, h, h', hU, hθ, _, hr => by cases hr; exact ⟨s', rfl, h, h', hU, rfl⟩
  | c :: ks, s, s', s1, h, h', hU, hθ, hv, hr => by
    have hc := hv c List.mem_cons_self
    obtain ⟨s2, k1, hr⟩ := bind_ok (show (StreamCall.run s c >>= fun q => runAll StreamCall.run q ks) = .ok s1 from hr)
    have ht : s.base.logPxt ≠ none ∨ c.field ≠ .mean := by
      by_contra hn
      exact early_mean h hn k1
    obtain ⟨s2', k1', k2'⟩ := h'.step hg c.flipped (flipped_valid hc) (by
      rw [flipped_field]
      refine ht.imp (fun h1 => ?_) id
      obtain ⟨A, e⟩ := Option.ne_none_iff_exists'.1 h1
      obtain ⟨A', -, e', -⟩ := hU.space A e
      rw [e']; simp)
    obtain ⟨s2'', k3, k2⟩ := h.step hg c hc ht
    obtain rfl : s2 = s2'' := Except.ok.inj (k1.symm.trans k3)
    obtain ⟨f1, f3⟩ := Flipped.stream h h' hU hθ sy hg c (fun _ => hax) hc ht k1 k1'
    obtain ⟨s1', e1, e2, e3, e4, e6⟩ := Flipped.streamCalls sy hg hax ks s2 s2' s1 k2 k2' f1 f3 (fun c' hc' => hv c' (List.mem_cons_of_mem _ hc')) hr
    refine ⟨s1', ?_, e2, e3, e4, e6.trans (stream_writes k1).1.cube⟩
    show (c.flipped.run s' >>= fun q => runAll StreamCall.run q (ks.map StreamCall.flipped)) = .ok s1'
    rw [k1']; exact e1

theorem sum_flip_norm (sy : SymmetricAbout g.y g.ny b) (h : m.Normalised g) : (m.flipped g).Normalised g := by
  refine ⟨h.pt, fun t x y => h.px t x _, fun t x y z => h.pz t x _ z, fun t x y => h.sig t x _, h.sumT, fun t ht => ?_, fun t ht x hx y hy => ?_⟩
  · rw [← h.sumX t ht]
    refine Finset.sum_congr rfl fun x _ => ?_
    rw [← sum_rev (n := g.ny) (fun y => m.px t x y * (width g.x x * width g.y y))]
    refine Finset.sum_congr rfl fun y _ => ?_
    rw [sy.width y.2]; rfl
  · exact h.sumZ t ht x hx (g.ny - 1 - y) (by omega)

theorem Flipped.paramIs (hU : Flipped p p' g) (h : ParamIs p g m L) (hc : CubeIs p'.cube g) (sy : SymmetricAbout g.y g.ny b) :
    ParamIs p' g (m.flipped g) L := by
  refine ⟨h.proper, hc, sum_flip_norm sy h.norm, ?_, ?_, ?_, ?_, ?_, ?_, h.lightNonneg⟩
  · rw [hU.logPt]; exact h.logPt
  · obtain ⟨A, e, hA⟩ := h.logPxt
    obtain ⟨A', q, e', k1, k2⟩ := hU.space A e
    refine ⟨A', e', ?_⟩
    have hA' := larr_iff.1 ((isArr_cond_iff (by decide) (by decide)).1 hA)
    refine (isArr_cond_iff (g := g) (by decide) (by decide)).2 (larr_iff.2 (MArr.congr k2 fun c hc => ?_))
    exact (k1.2 _ (flipY_has hc)).symm.trans (hA'.2 _ (flipY_has hc))
  · obtain ⟨A, e, hA⟩ := h.logPztx
    obtain ⟨A', q, e', k1, k2⟩ := hU.metal A e
    refine ⟨A', e', ?_⟩
    have hA' := larr_iff.1 ((isArr_cond_iff (by decide) (by decide)).1 hA)
    refine (isArr_cond_iff (g := g) (by decide) (by decide)).2 (larr_iff.2 (MArr.congr k2 fun c hc => ?_))
    exact (k1.2 _ (flipY_has hc)).symm.trans (hA'.2 _ (flipY_has hc))
  · obtain ⟨A, e, hA⟩ := h.muV
    obtain ⟨A', q, e', k1, k2⟩ := hU.mean A e
    refine ⟨A', e', ?_⟩
    refine MArr.isArr (g := g) (w := ['t','x']) (by decide) (MArr.congr k2 fun c hc => ?_)
    exact (k1.2 _ (flipY_has hc)).symm.trans (hA.2 _ (flipY_has hc))
  · obtain ⟨A, e, hA⟩ := h.sigV
    obtain ⟨A', q, e', k1, k2⟩ := hU.disp A e
    refine ⟨A', e', ?_⟩
    refine MArr.isArr (g := g) (w := ['t','x']) (by decide) (MArr.congr k2 fun c hc => ?_)
    exact (k1.2 _ (flipY_has hc)).symm.trans (hA.2 _ (flipY_has hc))
  · rw [hU.ssps]; exact h.light

theorem init_flip {cube : IFUCube} (hc : CubeIs cube g) (hg : g.Proper) (f2 : ℝ) (center : ℝ × ℝ) (rotation : ℝ) :
    ∃ p p', Param.init f2 cube center rotation = .ok p ∧ p.cube = cube ∧ Sound p g f2 center rotation ∧
      Param.init f2 cube center (-rotation) = .ok p' ∧ Sound p' g f2 center (-rotation) ∧
      Flipped p p' g ∧ (∀ f : Field, ∀ a ∈ f.get p, a = none) ∧ ∀ f : Field, ∀ a ∈ f.get p', a = none := by
  obtain ⟨p0, k1, k2, k3, k4⟩ := init_sound hc hg f2 center rotation
  obtain ⟨p0', k1', k2', k3', k4'⟩ := init_sound hc hg f2 center (-rotation)
  have none_of : ∀ f : Field, ∀ a ∈ f.get p0, ∀ A, a ≠ some A := fun f a ha A e => by rw [k4 f a ha] at e; cases e
  have l : p0.logPt = none := k4 .age _ (by simp [Field.get])
  have l' : p0'.logPt = none := k4' .age _ (by simp [Field.get])
  refine ⟨p0, p0', k1, k2, k3, k1', k3', ⟨by rw [k2', k2], by rw [k3'.built.f2, k3.built.f2], ?_, by rw [k3'.unaged l', k3.unaged l],
    by rw [l, l'], fun A hA => absurd hA (none_of .space _ (by simp [Field.get]) A), fun A hA => absurd hA (none_of .metal _ (by simp [Field.get]) A),
    fun A hA => absurd hA (none_of .mean _ (by simp [Field.get]) A), fun A hA => absurd hA (none_of .disp _ (by simp [Field.get]) A)⟩, k4, k4'⟩
  have e1 := k3.built.zGrid
  have e2 := k3'.built.zGrid
  rw [k2] at e1
  rw [k2'] at e2
  exact Except.ok.inj (e2.symm.trans e1)

/-! ### C101 -/

/-- **C101**, growing disks. On a cube with pixels symmetric in `y` about the centre of the disk, the calls that make a disk with rotation `ϕ` make one with rotation
`-ϕ` too, and it is the mirror image of the first. -/
theorem C101_disk {cube : IFUCube} (hc : CubeIs cube g) (hg : g.Proper) (sy : SymmetricAbout g.y g.ny center.2)
    (hl : IsArr g ['t','z'] cube.ssps.lightWeights (fun c => .fin (L c.t c.z))) (hL : ∀ t z, 0 < L t z)
    (hx : ∃ c, g.Has c ∧ frameX g center rotation c ≠ 0) (ks : List DiskCall) (hv : ∀ k ∈ ks, k.Valid) (hall : ∀ f : Field, ∃ k ∈ ks, k.field = f)
    (hp : makeDisk f2 cube center rotation ks = .ok p) :
    ∃ p', makeDisk f2 cube center (-rotation) ks = .ok p' ∧ MirrorImage p p' g center.2 := by
  obtain ⟨p0, p0', k1, k2, k3, k1', k3', hU, k4, -⟩ := init_flip hc hg f2 center rotation
  have hr : runAll DiskCall.run p0 ks = .ok p := by
    unfold makeDisk at hp
    rwa [k1] at hp
  obtain ⟨p', e1, e2, e3, e4, e5⟩ := Flipped.calls sy hg hx ks p0 p0' p k3 k3' hU hv hr
  refine ⟨p', ?_, ?_⟩
  · unfold makeDisk
    rw [k1']; exact e1
  have hf : ∀ f : Field, none ∉ f.get p := fun f => by
    rw [(set_fields (base := fun p => p) (fun {s s' k} h => disk_writes h) ks p0 p hr (fun f => Or.inr (k4 f)) f).1]
    exact Or.inr (hall f)
  obtain ⟨m, i1, i2, i3⟩ := e2.paramIs hg (by rw [e5, k2]; exact hl) (fun t z => (hL t z).le) hf
  exact i1.mirrorImage (e4.paramIs i1 e3.built.cubeIs sy) (i1.shines (fun t _ z _ => hL t z) i2 i3) sy e4.f2

/-- **C101**, growing disks along the axes: with rotation 0 a disk is its own mirror image. -/
theorem C101_aligned_disk {cube : IFUCube} (hc : CubeIs cube g) (hg : g.Proper) (sy : SymmetricAbout g.y g.ny center.2)
    (hl : IsArr g ['t','z'] cube.ssps.lightWeights (fun c => .fin (L c.t c.z))) (hL : ∀ t z, 0 < L t z)
    (hx : ∃ c, g.Has c ∧ frameX g center 0 c ≠ 0) (ks : List DiskCall) (hv : ∀ k ∈ ks, k.Valid) (hall : ∀ f : Field, ∃ k ∈ ks, k.field = f)
    (hp : makeDisk f2 cube center 0 ks = .ok p) : MirrorImage p p g center.2 := by
  obtain ⟨p', h1, h2⟩ := C101_disk hc hg sy hl hL hx ks hv hall hp
  rw [neg_zero, hp] at h1
  cases h1
  exact h2

/-- **C101**, streams: with the angles of the track of the opposite sign. No pixel centre may be on the half line where angles jump from π to -π. -/
theorem C101_stream {cube : IFUCube} (hc : CubeIs cube g) (hg : g.Proper) (sy : SymmetricAbout g.y g.ny center.2) (hax : OffCut g center rotation)
    (hl : IsArr g ['t','z'] cube.ssps.lightWeights (fun c => .fin (L c.t c.z))) (hL : ∀ t z, 0 < L t z)
    (ks : List StreamCall) (hv : ∀ k ∈ ks, k.Valid) (hall : ∀ f : Field, ∃ k ∈ ks, k.field = f) {s : Stream}
    (hp : makeStream f2 cube center rotation ks = .ok s) :
    ∃ s', makeStream f2 cube center (-rotation) (ks.map StreamCall.flipped) = .ok s' ∧ MirrorImage s.base s'.base g center.2 := by
  obtain ⟨p0, p0', k1, k2, k3, k1', k3', hU, k4, k4'⟩ := init_flip hc hg f2 center rotation
  have hr : runAll StreamCall.run ⟨p0, none⟩ ks = .ok s := by
    unfold makeStream Stream.init at hp
    rwa [k1] at hp
  have n : p0.logPxt = none := k4 .space _ (by simp [Field.get])
  have n' : p0'.logPxt = none := k4' .space _ (by simp [Field.get])
  obtain ⟨s', e1, e2, e3, e4, e5⟩ := Flipped.streamCalls sy hg hax ks ⟨p0, none⟩ ⟨p0', none⟩ s ⟨k3, by simp, by simp [n]⟩ ⟨k3', by simp, by simp [n']⟩ hU rfl hv hr
  refine ⟨s', ?_, ?_⟩
  · unfold makeStream Stream.init
    rw [k1']; exact e1
  have hf : ∀ f : Field, none ∉ f.get s.base := fun f => by
    rw [(set_fields (base := fun s => s.base) (fun {s s' k} h => (stream_writes h).1) ks ⟨p0, none⟩ s hr (fun f => Or.inr (k4 f)) f).1]
    exact Or.inr (hall f)
  obtain ⟨m, i1, i2, i3⟩ := e2.base.paramIs hg (by rw [e5, k2]; exact hl) (fun t z => (hL t z).le) hf
  exact i1.mirrorImage (e4.paramIs i1 e3.base.built.cubeIs sy) (i1.shines (fun t _ z _ => hL t z) i2 i3) sy e4.f2

/-- On that half line the mirror fails: for a track at positive angles `set_mu_v` gives the pixel the velocity of the end, for its mirror image that of the start. -/
theorem C101_on_the_cut (sy : SymmetricAbout g.y g.ny center.2) {s s' : Stream} (h : SoundStream s g f2 center rotation)
    (h' : SoundStream s' g f2 center (-rotation)) {θ : ℝ × ℝ} (e : s.thetaLims = some θ) (e' : s'.thetaLims = some (-θ.1, -θ.2)) (h0 : 0 ≤ θ.1) (h1 : θ.1 < θ.2)
    (h2 : θ.2 ≤ Real.pi) (lims : ℝ × ℝ) : ∃ s1 s1' A A', s.setMuV lims = .ok s1 ∧ s'.setMuV lims = .ok s1' ∧ s1.base.muV = some A ∧ s1'.base.muV = some A' ∧
      ∀ c, g.Has c → frameX g center rotation c < 0 → frameY g center rotation c = 0 →
        A.get [c.t, c.x, c.y] = .fin lims.2 ∧ A'.get [c.t, c.x, g.ny - 1 - c.y] = .fin lims.1 := by
  obtain ⟨A, k1, k2⟩ := stream_setMuV h.base.built (lims := lims) e h1.ne
  obtain ⟨A', k1', k2'⟩ := stream_setMuV h'.base.built (lims := lims) e' (fun e => h1.ne (neg_injective e))
  refine ⟨_, _, A, A', k1, k1', rfl, rfl, fun c hc hx hy => ?_⟩
  have i1 := k2.2 c hc
  have i2 := k2'.2 _ (flipY_has hc)
  have hpi : frameTheta g center rotation c = Real.pi := Complex.arg_eq_pi_iff.2 ⟨hx, hy⟩
  have hpi' : frameTheta g center (-rotation) (flipY g c) = Real.pi := by
    refine Complex.arg_eq_pi_iff.2 ⟨?_, ?_⟩
    · show frameX g center (-rotation) (flipY g c) < 0
      rw [(frame_flip sy (flipY_has hc)).1, flipY_flipY hc]; exact hx
    · show frameY g center (-rotation) (flipY g c) = 0
      rw [(frame_flip sy (flipY_has hc)).2, flipY_flipY hc, hy, neg_zero]
  have hd : 0 < θ.2 - θ.1 := by linarith
  constructor
  · refine Eq.trans i1 (congrArg Num.fin ?_)
    unfold streamMu alongTrack
    rw [hpi, min_eq_left (by rw [le_div_iff₀ hd]; linarith), max_eq_right zero_le_one]; ring
  · refine Eq.trans i2 (congrArg Num.fin ?_)
    unfold streamMu alongTrack
    rw [hpi']
    have : (Real.pi - -θ.1) / (-θ.2 - -θ.1) ≤ 0 := by
      rw [show -θ.2 - -θ.1 = -(θ.2 - θ.1) by ring, div_neg, neg_nonpos]
      exact div_nonneg (by linarith) hd.le
    dsimp only
    rw [max_eq_left ((min_le_right _ _).trans this)]; ring

/-! ### The hypotheses are met -/

theorem demo_symmetric : SymmetricAbout demoGrid.y demoGrid.ny (3 / 2) := by
  intro i hi
  have hi' : i ≤ 6 := hi
  interval_cases i <;> simp [demoGrid, cubeGrid, evenEdges] <;> norm_num

/-- The demonstration disk, turned by 1 radian both ways. -/
example : ∃ (cube : IFUCube) (p p' : Param), CubeIs cube demoGrid ∧ makeDisk 1 cube (0, 3 / 2) 1 demoCalls = .ok p ∧
    makeDisk 1 cube (0, 3 / 2) (-1) demoCalls = .ok p' ∧ MirrorImage p p' demoGrid (3 / 2) := by
  obtain ⟨cube, -, hc, hs⟩ := demoCube_exists
  obtain ⟨p0, k1, k2, k3, k4⟩ := init_sound hc demoGrid_proper 1 (0, 3 / 2) 1
  have off : ∃ c, demoGrid.Has c ∧ frameX demoGrid (0, 3 / 2) 1 c ≠ 0 := by
    by_contra hn
    push Not at hn
    have a1 := hn ⟨0, 0, 0, 0, 0⟩ (by simp [Grid.Has, demoGrid, cubeGrid])
    have a2 := hn ⟨0, 0, 1, 0, 0⟩ (by simp [Grid.Has, demoGrid, cubeGrid])
    have hcos := Real.cos_one_pos
    simp [frameX, centre, demoGrid, cubeGrid, evenEdges] at a1 a2
    linarith
  rcases disk_history demoGrid_proper off _ p0 k3 demoCalls_valid with ⟨p, j1, j2, j3⟩ | ⟨-, -, j⟩
  · have hp : makeDisk 1 cube (0, 3 / 2) 1 demoCalls = .ok p := by
      unfold makeDisk
      rw [k1]; exact j1
    obtain ⟨p', e1, e2⟩ := C101_disk (L := fun t _ => t + 1) hc demoGrid_proper demo_symmetric
      (by rw [hs]; exact ⟨rfl, fun c _ => rfl⟩) (fun t _ => by positivity) off demoCalls demoCalls_valid
      (fun f => by cases f <;> simp [demoCalls, DiskCall.field]) hp
    exact ⟨cube, p, p', hc, hp, e1, e2⟩
  · exfalso
    obtain ⟨pre, k, post, j1, j2, j3⟩ := j
    cases pre with
    | nil => simp only [List.nil_append, demoCalls, List.cons.injEq] at j1; rw [← j1.1] at j3; exact j3.1 rfl
    | cons k' pre =>
      simp only [List.cons_append, demoCalls, List.cons.injEq] at j1
      exact j2 k' (by simp) (by rw [← j1.1]; rfl)

theorem demo_offCut : OffCut demoGrid (0, 3 / 2) 0 := by
  rintro c ⟨-, -, -, hy, -⟩ ⟨-, h⟩
  have hy' : c.y < 6 := hy
  simp only [frameY, Real.sin_zero, Real.cos_zero, zero_mul, zero_add, one_mul] at h
  generalize c.y = y at h hy'
  interval_cases y <;> simp [centre, demoGrid, cubeGrid, evenEdges] at h <;> norm_num at h

/-- A stream at angles 0 to 1 and one at angles 0 to -1. -/
example : ∃ (cube : IFUCube) (s s' : Stream),
    makeStream 1 cube (0, 3 / 2) 0 [.setPt 15 0.5 (0.05, 0.95), .setPxt (0, 1) (1 / 2, 1) (1 / 4) 10, .setTDep 5, .setMuV (-50, 100), .setSigV 20] = .ok s ∧
    makeStream 1 cube (0, 3 / 2) (-0) [.setPt 15 0.5 (0.05, 0.95), .setPxt (-0, -1) (1 / 2, 1) (1 / 4) 10, .setTDep 5, .setMuV (-50, 100), .setSigV 20] = .ok s' ∧
    MirrorImage s.base s'.base demoGrid (3 / 2) := by
  obtain ⟨cube, -, hc, hs⟩ := demoCube_exists
  have hpi := Real.two_le_pi
  let ks : List StreamCall := [.setPt 15 0.5 (0.05, 0.95), .setPxt (0, 1) (1 / 2, 1) (1 / 4) 10, .setTDep 5, .setMuV (-50, 100), .setSigV 20]
  have hv : ∀ c ∈ ks, c.Valid := by
    intro c hc
    simp only [ks, List.mem_cons, List.not_mem_nil, or_false] at hc
    rcases hc with rfl | rfl | rfl | rfl | rfl
    · simp only [StreamCall.Valid, ValidSfh]; norm_num
    · refine ⟨⟨by linarith, by linarith⟩, ⟨?_, ?_⟩, by norm_num, by norm_num, by norm_num⟩
      · show -Real.pi ≤ 1; linarith
      · show 1 ≤ Real.pi; linarith
    · trivial
    · trivial
    · show (0:ℝ) < 20; norm_num
  obtain ⟨p0, k1, k2, k3, k4⟩ := init_sound hc demoGrid_proper 1 (0, 3 / 2) 0
  have n : p0.logPxt = none := k4 .space _ (by simp [Field.get])
  rcases stream_history demoGrid_proper ks ⟨p0, none⟩ ⟨k3, by simp, by simp [n]⟩ hv with ⟨s, j1, j2, j3⟩ | ⟨-, -, j⟩
  · have hp : makeStream 1 cube (0, 3 / 2) 0 ks = .ok s := by
      unfold makeStream Stream.init
      rw [k1]; exact j1
    obtain ⟨s', e1, e2⟩ := C101_stream (L := fun t _ => t + 1) hc demoGrid_proper demo_symmetric demo_offCut
      (by rw [hs]; exact ⟨rfl, fun c _ => rfl⟩) (fun t _ => by positivity) ks hv (fun f => by cases f <;> simp [ks, StreamCall.field]) hp
    exact ⟨cube, s, s', hp, e1, e2⟩
  · exfalso
    obtain ⟨pre, k, post, j1, j2, j3⟩ := j
    match pre, j1, j2 with
    | [], j1, _ => simp only [List.nil_append, ks, List.cons.injEq] at j1; rw [← j1.1] at j3; cases j3
    | [_], j1, _ => simp only [List.cons_append, List.nil_append, ks, List.cons.injEq] at j1; rw [← j1.2.1] at j3; cases j3
    | k1 :: k2 :: pre, j1, j2 =>
      simp only [List.cons_append, ks, List.cons.injEq] at j1
      exact j2 k2 (by simp) (by rw [← j1.2.1]; rfl)

/-- Streams turned by a right angle, with pixel centres on the half line. -/
example : ∃ (s s' : Stream) (c : Cell), SoundStream s demoGrid 1 (0, 3 / 2) (Real.pi / 2) ∧ SoundStream s' demoGrid 1 (0, 3 / 2) (-(Real.pi / 2)) ∧
    s.thetaLims = some (0, 1) ∧ s'.thetaLims = some (-0, -1) ∧ demoGrid.Has c ∧ frameX demoGrid (0, 3 / 2) (Real.pi / 2) c < 0 ∧
    frameY demoGrid (0, 3 / 2) (Real.pi / 2) c = 0 := by
  obtain ⟨cube, -, hc, hs⟩ := demoCube_exists
  have hpi := Real.two_le_pi
  have go : ∀ rot : ℝ, ∀ θ : ℝ × ℝ, (StreamCall.setPxt θ (1, 1) 1 10).Valid → ∃ s : Stream, SoundStream s demoGrid 1 (0, 3 / 2) rot ∧ s.thetaLims = some θ := by
    intro rot θ hv
    obtain ⟨p0, k1, k2, k3, k4⟩ := init_sound hc demoGrid_proper 1 (0, 3 / 2) rot
    have n : p0.logPxt = none := k4 .space _ (by simp [Field.get])
    have h0 : SoundStream ⟨p0, none⟩ demoGrid 1 (0, 3 / 2) rot := ⟨k3, by simp, by simp [n]⟩
    obtain ⟨s, j1, j2⟩ := h0.step demoGrid_proper (.setPxt θ (1, 1) 1 10) hv (Or.inr (by simp [StreamCall.field]))
    obtain ⟨v1, v2, v3, v4, v5⟩ := hv
    obtain ⟨A, i1, -⟩ := stream_setPxt h0.base.built demoGrid_proper (muR := (1, 1)) (le_min v1.1 v2.1) (max_le v1.2 v2.2) v3 v4 v5
    obtain rfl : _ = s := Except.ok.inj (i1.symm.trans j1)
    exact ⟨_, j2, rfl⟩
  have hv : (StreamCall.setPxt (0, 1) (1, 1) 1 10).Valid := by
    refine ⟨⟨by linarith, by linarith⟩, ⟨?_, ?_⟩, by norm_num, by norm_num, by norm_num⟩
    · show -Real.pi ≤ 1; linarith
    · show 1 ≤ Real.pi; linarith
  obtain ⟨s, h1, h2⟩ := go (Real.pi / 2) (0, 1) hv
  obtain ⟨s', h1', h2'⟩ := go (-(Real.pi / 2)) (-0, -1) (flipped_valid hv)
  refine ⟨s, s', ⟨0, 0, 2, 5, 0⟩, h1, h1', h2, h2', by simp [Grid.Has, demoGrid, cubeGrid], ?_, ?_⟩
  · simp [frameX, centre, demoGrid, cubeGrid, evenEdges]; norm_num
  · simp [frameY, centre, demoGrid, cubeGrid, evenEdges]; norm_num

end PKM
