import Verif.Props.PointSymmetry
import Verif.Props.ParamDerived
import Verif.Props.ParamYbar

/-!
# C83: the origin and the unit of sky coordinates do not matter

A component made with sky coordinates in another unit and with another origin (pixels, centre and all lengths converted) is the same component: all
probabilities, velocities, ages and metallicities are equal, and positions and their moments are those in the other coordinates.
-/

open scoped Classical
open MeasureTheory ProbabilityTheory Set

noncomputable section

namespace PKM
open Np Component

variable {p p' : Param} {g : Grid} {m : Ingredients} {L : ℕ → ℕ → ℝ} {f2 k a b : ℝ} {center : ℝ × ℝ} {rotation : ℝ}

/-! ### Specification -/

/-- The grid in other sky coordinates: `x` becomes `a + k x` and `y` becomes `b + k y`. -/
def Grid.similar (g : Grid) (k a b : ℝ) : Grid := { g with x := fun i => a + k * g.x i, y := fun i => b + k * g.y i }

/-- The same call with lengths in the other unit: core radii and radii of the rotation curve. -/
def DiskCall.inUnits (k : ℝ) : DiskCall → DiskCall
  | .setPxt q rc alpha => .setPxt q (k * rc.1, k * rc.2) alpha
  | .setMuV q rmax vmax => .setMuV q (k * rmax.1, k * rmax.2) vmax
  | c => c

/-- The same call with lengths in the other unit: radii and width of the track. -/
def StreamCall.inUnits (k : ℝ) : StreamCall → StreamCall
  | .setPxt theta muR sig n => .setPxt theta (k * muR.1, k * muR.2) (k * sig) n
  | c => c

/-- The value of a quantity in the other coordinates. -/
def newValue (k a b : ℝ) (q : Char) (u : ℝ) : ℝ := if q = 'x' then a + k * u else if q = 'y' then b + k * u else u

/-- The unit of a quantity. -/
def unitOf (k : ℝ) (q : Char) : ℝ := if q = 'x' ∨ q = 'y' then k else 1

/-- All answers are the same but for the coordinates. -/
structure SameSky (p p' : Param) (g : Grid) (k a b : ℝ) : Prop where
  /-- probabilities are equal; densities in position are per unit area -/
  marg : ∀ density lw, ∀ w ∈ marginals, ∃ q q', getP p.self w density lw = .ok q ∧ getP p'.self w density lw = .ok q' ∧ q.shape = g.shapeOf w ∧
    q'.shape = g.shapeOf w ∧ ∀ c, g.Has c → ∃ u : ℝ, q.get (coords w c) = .fin u ∧
      q'.get (coords w c) = .fin (if density = true ∧ 'x' ∈ w then u / k ^ 2 else u)
  cond : ∀ density lw, ∀ v w, (v, w) ∈ conditionals → ∃ q q', getP p.self (condStr v w) density lw = .ok q ∧ getP p'.self (condStr v w) density lw = .ok q' ∧
    q.shape = g.shapeOf v ++ g.shapeOf w ∧ q'.shape = g.shapeOf v ++ g.shapeOf w ∧ ∀ c, g.Has c →
      (q.get (coords v c ++ coords w c) = .nan ∧ q'.get (coords v c ++ coords w c) = .nan) ∨ ∃ u : ℝ, q.get (coords v c ++ coords w c) = .fin u ∧
        q'.get (coords v c ++ coords w c) = .fin (if density = true ∧ 'x' ∈ v then u / k ^ 2 else u)
  /-- means and moments, wherever there are stars -/
  mean : p.f2 = 1 → ∀ lw w, ∀ q ∈ ['t','v','x','y','z'], ValidPair (varOf q) w → ∃ r r', getMean p.self (distStr (varOf q) w) lw = .ok r ∧
    getMean p'.self (distStr (varOf q) w) lw = .ok r' ∧ r.shape = compShape (varOf q) ++ g.shapeOf w ∧ r'.shape = r.shape ∧
    ∀ c, g.Has c → Populated p lw w c → ∃ u : ℝ, r.get (compIdx q ++ coords w c) = .fin u ∧ r'.get (compIdx q ++ coords w c) = .fin (newValue k a b q u)
  central : p.f2 = 1 → ∀ lw w (j : ℕ), ∀ q ∈ ['t','v','x','y','z'], ValidPair (varOf q) w → ∃ r r', getCentralMoment p.self (distStr (varOf q) w) j lw = .ok r ∧
    getCentralMoment p'.self (distStr (varOf q) w) j lw = .ok r' ∧ r.shape = compShape (varOf q) ++ g.shapeOf w ∧ r'.shape = r.shape ∧
    ∀ c, g.Has c → Populated p lw w c → ∃ u : ℝ, r.get (compIdx q ++ coords w c) = .fin u ∧
      r'.get (compIdx q ++ coords w c) = .fin (unitOf k q ^ j * u)
  covariance : p.f2 = 1 → ∀ lw w v v', ValidPair [v, v'] w → ∃ r r', (obj p.self).getCovariance (distStr [v, v'] w) lw = .ok r ∧
    (obj p'.self).getCovariance (distStr [v, v'] w) lw = .ok r' ∧ r.shape = compShape [v] ++ compShape [v'] ++ g.shapeOf w ∧ r'.shape = r.shape ∧
    ∀ q ∈ PyStr.replaceX [v], ∀ q' ∈ PyStr.replaceX [v'], ∀ c, g.Has c → Populated p lw w c → ∃ u : ℝ,
      r.get (compIdx q ++ compIdx q' ++ coords w c) = .fin u ∧ r'.get (compIdx q ++ compIdx q' ++ coords w c) = .fin (unitOf k q * unitOf k q' * u)
  /-- correlations have no unit -/
  correlation : p.f2 = 1 → ∀ lw w v v', ValidPair [v, v'] w → ∃ r r', (obj p.self).getCorrelation (distStr [v, v'] w) lw = .ok r ∧
    (obj p'.self).getCorrelation (distStr [v, v'] w) lw = .ok r' ∧ r.shape = compShape [v] ++ compShape [v'] ++ g.shapeOf w ∧ r'.shape = r.shape ∧
    ∀ q ∈ PyStr.replaceX [v], ∀ q' ∈ PyStr.replaceX [v'], ∀ c, g.Has c → Populated p lw w c →
      r'.get (compIdx q ++ compIdx q' ++ coords w c) = r.get (compIdx q ++ compIdx q' ++ coords w c)
  /-- L-moments of age, velocity and metallicity, wherever the distribution is not nan -/
  lmoment : ∀ lw w (j : ℕ), 1 ≤ j → ∀ q ∈ ['t','v','z'], ValidPair [q] w → ∃ A r r', getP p.self (distStr [q] w) false lw = .ok A ∧
    (obj p.self).getLMoment (distStr [q] w) j lw = .ok r ∧ (obj p'.self).getLMoment (distStr [q] w) j lw = .ok r' ∧ r.shape = g.shapeOf w ∧
    r'.shape = g.shapeOf w ∧ ∀ c, g.Has c → (∀ i < g.bins q, A.get (i :: coords w c) ≠ .nan) → r'.get (coords w c) = r.get (coords w c)
  /-- datacubes are equal -/
  datacube : ∀ sp S n, 0 < n → SpectraAre sp g S n n → ∀ batch ∈ ["none".toList, "column".toList, "spaxel".toList], ∃ y y',
    p.evaluateYbar sp batch = .ok y ∧ p'.evaluateYbar sp batch = .ok y' ∧ y.shape = [n, g.nx, g.ny] ∧ y'.shape = [n, g.nx, g.ny] ∧
    ∀ w < n, ∀ i < g.nx, ∀ j < g.ny, y'.get [w, i, j] = y.get [w, i, j]

/-! ### Lemmas: grids -/

theorem similar_width (e : ℕ → ℝ) (k a : ℝ) (i : ℕ) : width (fun i => a + k * e i) i = k * width e i := by unfold width; ring
theorem similar_centre (e : ℕ → ℝ) (k a : ℝ) (i : ℕ) : centre (fun i => a + k * e i) i = a + k * centre e i := by unfold centre; ring

theorem Grid.Proper.similar (h : g.Proper) (hk : 0 < k) (a b : ℝ) : (g.similar k a b).Proper where
  nt := h.nt
  nv := h.nv
  nx := h.nx
  ny := h.ny
  nz := h.nz
  t := h.t
  v := h.v
  x i hi := by show a + k * g.x i < a + k * g.x (i + 1); have := h.x i hi; nlinarith
  y i hi := by show b + k * g.y i < b + k * g.y (i + 1); have := h.y i hi; nlinarith
  z := h.z

theorem similar_value (k a b : ℝ) (q : Char) (c : Cell) : (g.similar k a b).value q c = newValue k a b q (g.value q c) := by
  unfold Grid.value newValue Grid.similar
  dsimp only
  by_cases h1 : q = 't'
  · subst h1; simp
  by_cases h2 : q = 'v'
  · subst h2; simp
  by_cases h3 : q = 'x'
  · subst h3; simp [similar_centre]
  by_cases h4 : q = 'y'
  · subst h4; simp [similar_centre]
  simp [h1, h2, h3, h4]

theorem newValue_eq (k a b : ℝ) (q : Char) : ∃ s, ∀ u, newValue k a b q u = s + unitOf k q * u := by
  unfold newValue unitOf
  by_cases h1 : q = 'x'
  · exact ⟨a, fun u => by simp [h1]⟩
  by_cases h2 : q = 'y'
  · exact ⟨b, fun u => by simp [h2]⟩
  exact ⟨0, fun u => by simp [h1, h2]⟩

theorem newValue_v (k a b u : ℝ) : newValue k a b 'v' u = u := by simp [newValue]

theorem unitOf_pos (hk : 0 < k) (q : Char) : 0 < unitOf k q := by unfold unitOf; split <;> positivity

theorem similar_volOf (k a b : ℝ) {w : PyStr} (hw : w.count 'x' ≤ 1) (c : Cell) :
    (g.similar k a b).volOf w c = (if 'x' ∈ w then k ^ 2 else 1) * g.volOf w c := by
  have h1 : ∀ ch, (g.similar k a b).width1 c ch = (if ch = 'x' then k ^ 2 else 1) * g.width1 c ch := by
    intro ch
    unfold Grid.width1 Grid.similar
    dsimp only
    by_cases h3 : ch = 'x'
    · subst h3; simp [similar_width]; ring
    · simp [h3]
  induction w with
  | nil => simp [Grid.volOf]
  | cons ch w ih =>
    have e : ∀ g : Grid, g.volOf (ch :: w) c = g.width1 c ch * g.volOf w c := fun g => by simp [Grid.volOf]
    rw [e, e, h1]
    by_cases h3 : ch = 'x'
    · subst h3
      have h0 : 'x' ∉ w := by
        rw [List.count_cons_self] at hw
        exact List.count_eq_zero.1 (by omega)
      rw [ih (by rw [List.count_cons_self] at hw; omega)]
      simp [h0]; ring
    · rw [ih (by rwa [List.count_cons_of_ne (fun e => h3 (by simpa using e))] at hw)]
      have : 'x' ∈ ch :: w ↔ 'x' ∈ w := by simp [Ne.symm h3]
      simp only [this, h3, if_false, one_mul]
      ring

/-! ### Lemmas: populations -/

/-- The densities in the other coordinates. -/
def Ingredients.rescaled (m : Ingredients) (k : ℝ) : Ingredients := { m with px := fun t x y => m.px t x y / k ^ 2 }

section
variable (hk : 0 < k)
include hk

theorem rescaled_probX (c : Cell) : (m.rescaled k).probX (g.similar k a b) c = m.probX g c := by
  unfold Ingredients.probX Ingredients.rescaled Grid.similar
  dsimp only
  rw [similar_width, similar_width]
  field_simp

theorem rescaled_probTXZ : (m.rescaled k).probTXZ (g.similar k a b) = m.probTXZ g := by
  funext c
  unfold Ingredients.probTXZ
  rw [rescaled_probX hk]
  rfl

theorem rescaled_joint : (m.rescaled k).joint (g.similar k a b) = m.joint g := by
  funext c
  unfold Ingredients.joint
  rw [rescaled_probTXZ hk]
  rfl

theorem rescaled_pop : (m.rescaled k).pop (g.similar k a b) = m.pop g := by
  unfold Ingredients.pop
  rw [rescaled_probTXZ hk, rescaled_joint hk]
  rfl

theorem rescaled_marginal (lw : Bool) : (m.rescaled k).marginal (g.similar k a b) L lw = m.marginal g L lw := by
  funext w c
  unfold Ingredients.marginal Ingredients.weight Ingredients.weightTXZ
  rw [rescaled_probTXZ hk, rescaled_joint hk]
  rfl

theorem rescaled_weight (lw : Bool) : (m.rescaled k).weight (g.similar k a b) L lw = m.weight g L lw := by
  funext c
  unfold Ingredients.weight
  rw [rescaled_joint hk]
  rfl

theorem rescaled_shines (h : Shines g m L) : Shines (g.similar k a b) (m.rescaled k) L := by
  unfold Shines
  rw [rescaled_probTXZ hk]
  exact h

end

theorem mul_sumCells (u : ℝ) (f : Cell → ℝ) : u * g.sumCells f = g.sumCells (fun d => u * f d) := by
  unfold Grid.sumCells; simp only [Finset.mul_sum]

section
variable {q : Pop} {lw : Bool} {w : PyStr} {c : Cell}

theorem similar_lightOf : q.lightOf (g.similar k a b) L w = q.lightOf g L w := by unfold Pop.lightOf; rfl

theorem similar_amount : q.amount (g.similar k a b) L lw w c = q.amount g L lw w c := by unfold Pop.amount; rfl

theorem similar_marginal : q.marginal (g.similar k a b) L lw w c = q.marginal g L lw w c := by
  unfold Pop.marginal
  rw [similar_lightOf, similar_amount]

theorem similar_sumCells (f : Cell → ℝ) : (g.similar k a b).sumCells f = g.sumCells f := rfl
theorem similar_sumTXZ (f : Cell → ℝ) : Ingredients.sumTXZ (g.similar k a b) f = Ingredients.sumTXZ g f := rfl
theorem similar_v : (g.similar k a b).v = g.v := rfl

theorem similar_expect (ch : Char) (φ : ℝ → ℝ) :
    q.expect (g.similar k a b) L lw w ch φ c = q.expect g L lw w ch (fun u => φ (newValue k a b ch u)) c := by
  unfold Pop.expect
  by_cases h : ch = 'v'
  · subst h
    simp only [newValue_v]
    rfl
  · simp only [similar_value, if_neg h]
    rfl

variable (hP : q.Poly g) (hg : g.Proper) (hok : q.Ok g) (hL : ∀ t z, 0 ≤ L t z) (h0 : q.amount g L lw w c ≠ 0)
include hP hg hok hL h0

theorem similar_mean {ch : Char} (hv : ch = 'v' → 'v' ∉ w) : q.mean (g.similar k a b) L lw w ch c = newValue k a b ch (q.mean g L lw w ch c) := by
  obtain ⟨E, hE, hp⟩ := hP.functional hg hok hL hv h0
  obtain ⟨s, hs⟩ := newValue_eq k a b ch
  unfold Pop.mean
  rw [similar_expect, hs]
  simp only [hs]
  have e1 := hp (Polynomial.C s + unitOf k ch • Polynomial.X)
  have e2 := hp Polynomial.X
  simp only [Polynomial.eval_add, Polynomial.eval_C, Polynomial.eval_smul, Polynomial.eval_X, smul_eq_mul] at e1 e2
  rw [← e1, ← e2, map_add, map_smul, smul_eq_mul]
  congr 1
  have : Polynomial.C s = s • (1 : Polynomial ℝ) := by rw [Polynomial.smul_eq_C_mul, mul_one]
  rw [this, map_smul, hE.one, smul_eq_mul, mul_one]

theorem similar_central {ch : Char} (hv : ch = 'v' → 'v' ∉ w) (j : ℕ) :
    q.central (g.similar k a b) L lw w ch j c = unitOf k ch ^ j * q.central g L lw w ch j c := by
  obtain ⟨E, hE, hp⟩ := hP.functional hg hok hL hv h0
  obtain ⟨s, hs⟩ := newValue_eq k a b ch
  unfold Pop.central
  rw [similar_expect, similar_mean hP hg hok hL h0 hv]
  simp only [hs]
  set μ := q.mean g L lw w ch c
  have e1 := hp ((unitOf k ch ^ j) • (Polynomial.X - Polynomial.C μ) ^ j)
  have e2 := hp ((Polynomial.X - Polynomial.C μ) ^ j)
  simp only [Polynomial.eval_smul, Polynomial.eval_pow, Polynomial.eval_sub, Polynomial.eval_X, Polynomial.eval_C, smul_eq_mul] at e1 e2
  rw [map_smul, smul_eq_mul, e2] at e1
  rw [e1]
  congr 1
  funext u
  rw [← mul_pow]
  congr 1; ring

theorem similar_givenCov {v v' ch ch' : Char} (hab : ValidPair [v, v'] w) (h1 : ch ∈ PyStr.replaceX [v]) (h2 : ch' ∈ PyStr.replaceX [v']) :
    q.givenCov (g.similar k a b) L lw w ch ch' c = unitOf k ch * unitOf k ch' * q.givenCov g L lw w ch ch' c := by
  obtain ⟨p0, p1⟩ := validPair_sub hab
  have n1 : ch = 'v' → 'v' ∉ w := fun e => by obtain rfl := (mem_replaceX h1).1 e; exact noV_of_valid p0
  have n2 : ch' = 'v' → 'v' ∉ w := fun e => by obtain rfl := (mem_replaceX h2).1 e; exact noV_of_valid p1
  have uv : unitOf k 'v' = 1 := by simp [unitOf]
  have mv : ∀ {u}, u = 'v' → 'v' ∉ w → q.mean (g.similar k a b) L lw w 'v' c = q.mean g L lw w 'v' c := fun _ h => by
    rw [similar_mean hP hg hok hL h0 (fun _ => h), newValue_v]
  have bc : ∀ {u : Char}, (u = 'v' → 'v' ∉ w) → 'v' ∉ w → q.binCov (g.similar k a b) L lw w u c = unitOf k u * q.binCov g L lw w u c := by
    intro u hu hw
    obtain ⟨s, hs⟩ := newValue_eq k a b u
    unfold Pop.binCov
    rw [mv rfl hw, similar_mean hP hg hok hL h0 hu]
    simp only [similar_value, hs, similar_lightOf, similar_marginal, similar_sumCells, similar_v]
    rw [← mul_div_assoc, ← mul_div_assoc, mul_sumCells]
    refine congrArg (fun x => x / _ / _) (congrArg g.sumCells (funext fun d => ?_))
    refine (if_congr Iff.rfl ?_ (mul_zero _).symm).trans (mul_ite _ _ _ _).symm
    ring
  unfold Pop.givenCov
  by_cases hv : ch = 'v'
  · subst hv
    rw [if_pos rfl, if_pos rfl, bc n2 (n1 rfl), uv, one_mul]
  · rw [if_neg hv, if_neg hv]
    by_cases hv' : ch' = 'v'
    · subst hv'
      rw [if_pos rfl, if_pos rfl, bc n1 (n2 rfl), uv, mul_one]
    · rw [if_neg hv', if_neg hv']
      obtain ⟨s, hs⟩ := newValue_eq k a b ch
      obtain ⟨s', hs'⟩ := newValue_eq k a b ch'
      unfold Pop.cov
      rw [similar_mean hP hg hok hL h0 n1, similar_mean hP hg hok hL h0 n2]
      unfold Pop.expectOf
      simp only [similar_value, hs, hs', similar_sumCells, similar_sumTXZ, similar_amount]
      rw [← mul_div_assoc, mul_ite, mul_sumCells, ← sumTXZ_mul]
      refine congrArg (· / _) (if_congr Iff.rfl ?_ ?_)
      · refine congrArg g.sumCells (funext fun d => ?_)
        refine (if_congr Iff.rfl ?_ (mul_zero _).symm).trans (mul_ite _ _ _ _).symm
        ring
      · refine congrArg (Ingredients.sumTXZ g) (funext fun d => ?_)
        refine (if_congr Iff.rfl ?_ (mul_zero _).symm).trans (mul_ite _ _ _ _).symm
        ring

end

theorem div_units {u : ℝ} (hu : 0 < u) (x y : ℝ) : (Num.fin (u * x) / Num.fin (u * y) : Num) = Num.fin x / Num.fin y := by
  show Num.div _ _ = Num.div _ _
  simp only [Num.div, mul_eq_zero, hu.ne', false_or]
  refine if_congr Iff.rfl ?_ (by rw [mul_div_mul_left _ _ hu.ne'])
  unfold Num.infSign
  refine if_congr (by constructor <;> intro h <;> nlinarith) rfl (if_congr (by constructor <;> intro h <;> nlinarith) rfl rfl)

/-! ### Lemmas: answers -/

theorem count_x : (∀ w ∈ marginals, w.count 'x' ≤ 1) ∧ ∀ q ∈ conditionals, q.1.count 'x' ≤ 1 := by decide +kernel

theorem similar_shapeOf (w : PyStr) : (g.similar k a b).shapeOf w = g.shapeOf w := rfl

theorem units_dens (hk : 0 < k) (density : Bool) {w : PyStr} (hw : w.count 'x' ≤ 1) (u : ℝ) (c : Cell) :
    u / (if density then (g.similar k a b).volOf w c else 1) =
      if density = true ∧ 'x' ∈ w then u / (if density then g.volOf w c else 1) / k ^ 2 else u / (if density then g.volOf w c else 1) := by
  cases density
  · simp
  · simp only [if_true, similar_volOf k a b hw, true_and]
    split
    · rw [div_div, mul_comm]
    · rw [one_mul]

/-- Probability of stars is proportional to their number. -/
theorem marginal_amount (lw : Bool) (w : PyStr) (c : Cell) (h : m.marginal g L lw w c ≠ 0) : (m.pop g).amount g L lw w c ≠ 0 := by
  intro h0
  apply h
  unfold Pop.amount at h0
  rw [ingr_stars] at h0
  have e1 : ∀ d, m.weight g L lw d = (if lw then (g.sumCells fun d => L d.t d.z * m.joint g d)⁻¹ else 1) * (Pop.wt L lw d * (m.pop g).joint d) := by
    intro d
    cases lw
    · simp [Ingredients.weight, Pop.wt, Ingredients.pop]
    · simp [Ingredients.weight, Pop.wt, Ingredients.pop]; ring
  have e2 : ∀ d, m.weightTXZ g L lw d = (if lw then (Ingredients.sumTXZ g fun d => L d.t d.z * m.probTXZ g d)⁻¹ else 1) * (Pop.wt L lw d * m.probTXZ g d) := by
    intro d
    cases lw
    · simp [Ingredients.weightTXZ, Pop.wt]
    · simp [Ingredients.weightTXZ, Pop.wt]; ring
  unfold Ingredients.marginal
  by_cases hv : 'v' ∈ w
  · rw [if_pos hv] at h0 ⊢
    simp only [e1, ← mul_ite_zero] at h0 ⊢
    rw [← mul_sumCells, h0, mul_zero]
  · rw [if_neg hv] at h0 ⊢
    simp only [e2, ← mul_ite_zero] at h0 ⊢
    rw [sumTXZ_mul, h0, mul_zero]

theorem valid_conditioners {v w : PyStr} (h : ValidPair v w) : w ∈ [] :: marginals := by
  rcases h with ⟨rfl, -⟩ | hb
  · exact List.mem_cons_self
  · exact List.mem_cons_of_mem _ (conditionals_letters _ hb).2.2.2.2.2.2.2.2.1

/-- The cell with the same conditioners in another bin. -/
theorem cell_at {q : Char} {w : PyStr} (hv : ValidPair [q] w) (hq : q ∈ ['t','v','z']) {c : Cell} (hc : g.Has c) {i : ℕ} (hi : i < g.bins q) :
    ∃ d, g.Has d ∧ coords [q] d = [i] ∧ coords w d = coords w c := by
  have hA : AxisChar q := by
    simp only [List.mem_cons, List.not_mem_nil, or_false] at hq
    rcases hq with rfl | rfl | rfl <;> simp [AxisChar]
  refine ⟨setL c q i, has_setL hc hA ?_, ?_, coords_dep hv hc ?_ i⟩
  all_goals
    simp only [List.mem_cons, List.not_mem_nil, or_false] at hq
    rcases hq with rfl | rfl | rfl <;> simp_all [sizeL, Grid.bins, coords, coord1, setL, PyStr.replaceX]

section
variable (h : ParamIs p g m L) (h' : ParamIs p' (g.similar k a b) (m.rescaled k) L) (hl : Shines g m L) (hk : 0 < k)
include h h' hl hk

theorem units_cond (density lw : Bool) {v w : PyStr} (hab : (v, w) ∈ conditionals) : ∃ q q', getP p.self (condStr v w) density lw = .ok q ∧
    getP p'.self (condStr v w) density lw = .ok q' ∧ q.shape = g.shapeOf v ++ g.shapeOf w ∧ q'.shape = g.shapeOf v ++ g.shapeOf w ∧ ∀ c, g.Has c →
      (q.get (coords v c ++ coords w c) = .nan ∧ q'.get (coords v c ++ coords w c) = .nan) ∨ ∃ u : ℝ, q.get (coords v c ++ coords w c) = .fin u ∧
        q'.get (coords v c ++ coords w c) = .fin (if density = true ∧ 'x' ∈ v then u / k ^ 2 else u) := by
  have hl' := rescaled_shines (a := a) (b := b) hk hl
  have hx := count_x.2 _ hab
  have fin : ∀ {x y : Num} {u : ℝ} (c : Cell), x = .fin (u / (if density then g.volOf v c else 1)) →
      y = .fin (u / (if density then (g.similar k a b).volOf v c else 1)) → (x = .nan ∧ y = .nan) ∨ ∃ u : ℝ, x = .fin u ∧
        y = .fin (if density = true ∧ 'x' ∈ v then u / k ^ 2 else u) := fun c e1 e2 =>
    Or.inr ⟨_, e1, e2.trans (congrArg Num.fin (units_dens hk density hx _ c))⟩
  have fin' : ∀ {x y : Num} {u s : ℝ} (c : Cell), x = (if s = 0 then .nan else .fin (u / (if density then g.volOf v c else 1))) →
      y = (if s = 0 then .nan else .fin (u / (if density then (g.similar k a b).volOf v c else 1))) → (x = .nan ∧ y = .nan) ∨ ∃ u : ℝ, x = .fin u ∧
        y = .fin (if density = true ∧ 'x' ∈ v then u / k ^ 2 else u) := fun {x y u s} c e1 e2 => by
    by_cases h0 : s = 0
    · exact Or.inl ⟨by rw [e1, if_pos h0], by rw [e2, if_pos h0]⟩
    · exact fin c (by rw [e1, if_neg h0]) (by rw [e2, if_neg h0])
  by_cases ho : (v, w) ∈ [(['x'],['t']), (['v'],['t','x']), (['z'],['t','x'])]
  · simp only [List.mem_cons, Prod.mk.injEq, List.not_mem_nil, or_false] at ho
    cases lw
    · obtain ⟨⟨q1, i1, i2, i3⟩, ⟨q2, j1, j2, j3⟩, ⟨q3, k1, k2, k3⟩⟩ := C32_ingredients h density
      obtain ⟨⟨q1', i1', i2', i3'⟩, ⟨q2', j1', j2', j3'⟩, ⟨q3', k1', k2', k3'⟩⟩ := C32_ingredients h' density
      rcases ho with ⟨rfl, rfl⟩ | ⟨rfl, rfl⟩ | ⟨rfl, rfl⟩
      · exact ⟨q1, q1', i1, i1', i2, i2', fun c hc => fin c (i3 c hc) (by rw [← rescaled_probX (a := a) (b := b) hk]; exact i3' c hc)⟩
      · exact ⟨q2, q2', j1, j1', j2, j2', fun c hc => fin c (j3 c hc) (j3' c hc)⟩
      · exact ⟨q3, q3', k1, k1', k2, k2', fun c hc => fin c (k3 c hc) (k3' c hc)⟩
    · obtain ⟨⟨q1, i1, i2, i3⟩, ⟨q2, j1, j2, j3⟩, ⟨q3, k1, k2, k3⟩⟩ := C32_light_ingredients h density hl
      obtain ⟨⟨q1', i1', i2', i3'⟩, ⟨q2', j1', j2', j3'⟩, ⟨q3', k1', k2', k3'⟩⟩ := C32_light_ingredients h' density hl'
      simp only [rescaled_marginal hk, rescaled_weight hk] at i3' j3' k3'
      rcases ho with ⟨rfl, rfl⟩ | ⟨rfl, rfl⟩ | ⟨rfl, rfl⟩
      · exact ⟨q1, q1', i1, i1', i2, i2', fun c hc => fin' c (i3 c hc) (i3' c hc)⟩
      · exact ⟨q2, q2', j1, j1', j2, j2', fun c hc => fin' c (j3 c hc) (j3' c hc)⟩
      · exact ⟨q3, q3', k1, k1', k2, k2', fun c hc => fin' c (k3 c hc) (k3' c hc)⟩
  · obtain ⟨q, h1, h2, h3⟩ := C32_conditionals h density lw (fun _ => hl) v w hab ho
    obtain ⟨q', h1', h2', h3'⟩ := C32_conditionals h' density lw (fun _ => hl') v w hab ho
    simp only [rescaled_marginal hk] at h3'
    exact ⟨q, q', h1, h1', h2, h2', fun c hc => fin' c (h3 c hc) (h3' c hc)⟩

/-- Fractions in the bins of a variable other than position are equal. -/
theorem units_share {lw : Bool} {v w : PyStr} (hv : ValidPair v w) (hx : 'x' ∉ v) {A A' : Arr Num} (hA : getP p.self (distStr v w) false lw = .ok A)
    (hA' : getP p'.self (distStr v w) false lw = .ok A') {d : Cell} (hd : g.Has d) : A.get (coords v d ++ coords w d) = .nan ∨
      ∃ u : ℝ, A.get (coords v d ++ coords w d) = .fin u ∧ A'.get (coords v d ++ coords w d) = .fin u := by
  rcases hv with ⟨rfl, hm⟩ | hab
  · obtain ⟨q, h1, -, h3⟩ := C32_marginals h false lw (fun _ => hl) v hm
    obtain ⟨q', h1', -, h3'⟩ := C32_marginals h' false lw (fun _ => rescaled_shines (a := a) (b := b) hk hl) v hm
    obtain rfl : _ = A := Except.ok.inj (h1.symm.trans hA)
    obtain rfl : _ = A' := Except.ok.inj (h1'.symm.trans hA')
    have e0 : coords v d ++ coords [] d = coords v d := by simp [coords]
    rw [e0]
    refine Or.inr ⟨_, h3 d hd, ?_⟩
    rw [h3' d hd, rescaled_marginal hk]; rfl
  · obtain ⟨q, q', h1, h1', -, -, h3⟩ := units_cond h h' hl hk false lw hab
    have ne : w ≠ [] := (by decide : ∀ vw ∈ conditionals, vw.2 ≠ []) _ hab
    rw [distStr, if_neg ne] at hA hA'
    obtain rfl : _ = A := Except.ok.inj (h1.symm.trans hA)
    obtain rfl : _ = A' := Except.ok.inj (h1'.symm.trans hA')
    rcases h3 d hd with e | ⟨u, e, e'⟩
    · exact Or.inl e.1
    · exact Or.inr ⟨u, e, by simpa using e'⟩

theorem ParamIs.sameSky (hf : p'.f2 = p.f2) : SameSky p p' g k a b := by
  have hl' := rescaled_shines (a := a) (b := b) hk hl
  have hL := h.lightNonneg
  have pop : (m.rescaled k).pop (g.similar k a b) = m.pop g := rescaled_pop hk
  have sh : (m.pop g).Shines g L := by
    unfold Pop.Shines Pop.lightOf
    rw [if_neg (by decide), ingr_stars]
    exact hl
  have at' : p.f2 = 1 → ∀ lw w, PopAt (obj p'.self) (m.pop g) (g.similar k a b) L lw w (fun _ => True) (fun c => (m.pop g).amount g L lw w c ≠ 0) := fun e lw w => by
    have := h'.popAt (hf.trans e) (lw := lw) (fun _ => by rw [pop]; unfold Pop.Shines; rw [similar_lightOf]; exact sh) w
    simpa only [pop, similar_amount] using this
  have atp : p.f2 = 1 → ∀ lw w, PopAt (obj p.self) (m.pop g) g L lw w (fun _ => True) (fun c => (m.pop g).amount g L lw w c ≠ 0) :=
    fun e lw w => h.popAt e (fun _ => sh) w
  have ne : ∀ {lw v w c}, ValidPair v w → g.Has c → Populated p lw w c → (m.pop g).amount g L lw w c ≠ 0 := fun hv hc hp =>
    marginal_amount _ _ _ (hp.ne h hl (valid_conditioners hv) hc)
  have hP : (m.pop g).Poly g := ingr_poly m h.pop_ok
  refine ⟨fun density lw w hw => ?_, fun density lw v w hab => units_cond h h' hl hk density lw hab, fun e lw w q hq hv => ?_, fun e lw w j q hq hv => ?_,
    fun e lw w v v' hv => ?_, fun e lw w v v' hv => ?_, fun lw w j hj q hq hv => ?_, fun sp S n hn hS batch hb => ?_⟩
  · obtain ⟨q, h1, h2, h3⟩ := C32_marginals h density lw (fun _ => hl) w hw
    obtain ⟨q', h1', h2', h3'⟩ := C32_marginals h' density lw (fun _ => hl') w hw
    refine ⟨q, q', h1, h1', h2, h2', fun c hc => ⟨_, h3 c hc, ?_⟩⟩
    rw [h3' c hc, rescaled_marginal hk, units_dens hk density (count_x.1 w hw)]
  · obtain ⟨k1, k2, -⟩ := quantity_facts hq
    obtain ⟨M, F, e1, i, v⟩ := (atp e lw w).mean _ hv k1
    obtain ⟨M', F', e1', i', v'⟩ := (at' e lw w).mean _ hv k1
    refine ⟨M, M', e1, e1', i.1, i'.1.trans i.1.symm, fun c hc hp => ⟨_, (i.2 q k2 c hc).trans (v q k2 c hc (ne hv hc hp)), ?_⟩⟩
    rw [i'.2 q k2 c hc, v' q k2 c hc (ne hv hc hp), similar_mean hP h.proper h.pop_ok hL (ne hv hc hp)]
    rintro rfl; exact noV_of_valid hv
  · obtain ⟨k1, k2, -⟩ := quantity_facts hq
    obtain ⟨M, F, e1, i, v⟩ := (atp e lw w).central _ hv k1 trivial j
    obtain ⟨M', F', e1', i', v'⟩ := (at' e lw w).central _ hv k1 trivial j
    refine ⟨M, M', e1, e1', i.1, i'.1.trans i.1.symm, fun c hc hp => ⟨_, (i.2 q k2 c hc).trans (v q k2 c hc (ne hv hc hp)), ?_⟩⟩
    rw [i'.2 q k2 c hc, v' q k2 c hc (ne hv hc hp), similar_central hP h.proper h.pop_ok hL (ne hv hc hp)]
    rintro rfl; exact noV_of_valid hv
  · obtain ⟨r, r1, r2, r3⟩ := (atp e lw w).covariance hv
    obtain ⟨r', r1', r2', r3'⟩ := (at' e lw w).covariance hv
    refine ⟨r, r', r1, r1', r2, r2'.trans r2.symm, fun q hq q' hq' c hc hp => ⟨_, r3 q hq q' hq' c hc (ne hv hc hp), ?_⟩⟩
    rw [r3' q hq q' hq' c hc (ne hv hc hp), similar_givenCov hP h.proper h.pop_ok hL (ne hv hc hp) hv hq hq']
  · obtain ⟨r, r1, r2, r3⟩ := (atp e lw w).correlation hv trivial trivial
    obtain ⟨r', r1', r2', r3'⟩ := (at' e lw w).correlation hv trivial trivial
    refine ⟨r, r', r1, r1', r2, r2'.trans r2.symm, fun q hq q' hq' c hc hp => ?_⟩
    have h0 := ne hv hc hp
    obtain ⟨p0, p1⟩ := validPair_sub hv
    have n1 : q = 'v' → 'v' ∉ w := fun e => by obtain rfl := (mem_replaceX hq).1 e; exact noV_of_valid p0
    have n2 : q' = 'v' → 'v' ∉ w := fun e => by obtain rfl := (mem_replaceX hq').1 e; exact noV_of_valid p1
    have u1 := unitOf_pos hk q
    have u2 := unitOf_pos hk q'
    rw [r3 q hq q' hq' c hc h0, r3' q hq q' hq' c hc h0, similar_givenCov hP h.proper h.pop_ok hL h0 hv hq hq']
    unfold Pop.variance
    rw [similar_central hP h.proper h.pop_ok hL h0 n1, similar_central hP h.proper h.pop_ok hL h0 n2]
    rw [show unitOf k q ^ 2 * (m.pop g).central g L lw w q 2 c * (unitOf k q' ^ 2 * (m.pop g).central g L lw w q' 2 c) =
      (unitOf k q * unitOf k q') ^ 2 * ((m.pop g).central g L lw w q 2 c * (m.pop g).central g L lw w q' 2 c) by ring,
      Real.sqrt_mul (sq_nonneg _), Real.sqrt_sq (mul_pos u1 u2).le]
    exact div_units (mul_pos u1 u2) _ _
  · obtain ⟨A, r, e1, e2, e3, e4⟩ := C68_l_moments_of_distribution (lw := lw) h (fun _ => sh) q hq w hv j hj
    obtain ⟨A', r', e1', e2', e3', e4'⟩ := C68_l_moments_of_distribution (lw := lw) h' (fun _ => by rw [pop]; unfold Pop.Shines; rw [similar_lightOf]; exact sh)
      q hq w hv j hj
    refine ⟨A, r, r', e1, e2, e2', e3, e3', fun c hc hA => ?_⟩
    have all : ∀ i, ∃ u : ℝ, i < g.bins q → A.get (i :: coords w c) = .fin u ∧ A'.get (i :: coords w c) = .fin u := fun i => by
      by_cases hi : i < g.bins q
      · obtain ⟨d, hd, d1, d2⟩ := cell_at hv hq hc hi
        have := units_share h h' hl hk hv (hd := hd) (by simp only [List.mem_cons, List.not_mem_nil, or_false] at hq; rcases hq with rfl | rfl | rfl <;> decide) e1 e1'
        rw [d1, d2, List.singleton_append] at this
        rcases this with e | ⟨u, e, e'⟩
        · exact absurd e (hA i hi)
        · exact ⟨u, fun _ => ⟨e, e'⟩⟩
      · exact ⟨0, fun h => absurd h hi⟩
    choose π hπ using all
    rw [e4 c hc π fun i hi => (hπ i hi).1, e4' c hc π fun i hi => (hπ i hi).2]
    have hb : (g.similar k a b).bins q = g.bins q := rfl
    have hE : (g.similar k a b).edge q = g.edge q := by
      simp only [List.mem_cons, List.not_mem_nil, or_false] at hq
      rcases hq with rfl | rfl | rfl <;> rfl
    rw [hb, hE]
  · have hS' : SpectraAre sp (g.similar k a b) S n n := ⟨hS.len, hS.nFft, hS.dims, hS.shape, hS.get⟩
    obtain ⟨⟨y1, a1, b1⟩, e2, e3, -⟩ := Param.evaluateYbar_is h hn hS
    obtain ⟨⟨y1', a1', b1'⟩, e2', e3', -⟩ := Param.evaluateYbar_is h' hn hS'
    obtain ⟨y2, a2, b2⟩ := e2 rfl
    obtain ⟨y3, a3, b3⟩ := e3 rfl
    obtain ⟨y2', a2', b2'⟩ := e2' rfl
    obtain ⟨y3', a3', b3'⟩ := e3' rfl
    have eq : Param.ybarOf (g.similar k a b) (m.rescaled k) sp S n n = Param.ybarOf g m sp S n n := by
      funext w i j
      unfold Param.ybarOf
      rw [rescaled_probTXZ hk]
      rfl
    rw [eq] at b1' b2' b3'
    have go : ∀ {y y' : Arr Num}, Is3 y n g.nx g.ny (fun w i j => .fin (Param.ybarOf g m sp S n n w i j)) →
        Is3 y' n g.nx g.ny (fun w i j => .fin (Param.ybarOf g m sp S n n w i j)) → y.shape = [n, g.nx, g.ny] ∧ y'.shape = [n, g.nx, g.ny] ∧
        ∀ w < n, ∀ i < g.nx, ∀ j < g.ny, y'.get [w, i, j] = y.get [w, i, j] := fun h1 h2 =>
      ⟨h1.1, h2.1, fun w hw i hi j hj => (h2.2 w hw i hi j hj).trans (h1.2 w hw i hi j hj).symm⟩
    simp only [List.mem_cons, List.not_mem_nil, or_false] at hb
    rcases hb with rfl | rfl | rfl
    · exact ⟨y1, y1', a1, a1', go b1 b1'⟩
    · exact ⟨y2, y2', a2, a2', go b2 b2'⟩
    · exact ⟨y3, y3', a3, a3', go b3 b3'⟩

end

/-! ### Lemmas: the frame of a component -/

/-- The centre in the other coordinates. -/
def newCenter (k a b : ℝ) (center : ℝ × ℝ) : ℝ × ℝ := (a + k * center.1, b + k * center.2)

theorem frame_similar (c : Cell) : frameX (g.similar k a b) (newCenter k a b center) rotation c = k * frameX g center rotation c ∧
    frameY (g.similar k a b) (newCenter k a b center) rotation c = k * frameY g center rotation c := by
  unfold frameX frameY newCenter Grid.similar
  dsimp only
  rw [similar_centre, similar_centre]
  constructor <;> ring

section
variable (hk : 0 < k)
include hk

theorem ellR_similar (q : ℝ) (c : Cell) : ellR (g.similar k a b) (newCenter k a b center) rotation q c = k * ellR g center rotation q c := by
  unfold ellR
  rw [(frame_similar c).1, (frame_similar c).2, show (k * frameX g center rotation c) ^ 2 + (k * frameY g center rotation c / q) ^ 2 =
    k ^ 2 * (frameX g center rotation c ^ 2 + (frameY g center rotation c / q) ^ 2) by ring, Real.sqrt_mul (sq_nonneg _), Real.sqrt_sq hk.le]

theorem maxX_similar {u : ℝ} (h : MaxX g center rotation u) : MaxX (g.similar k a b) (newCenter k a b center) rotation (k * u) := by
  obtain ⟨⟨c, hc, e⟩, hu⟩ := h
  refine ⟨⟨c, hc, ?_⟩, fun c hc => ?_⟩
  · rw [(frame_similar c).1, abs_mul, abs_of_pos hk, e]
  · rw [(frame_similar c).1, abs_mul, abs_of_pos hk]
    exact mul_le_mul_of_nonneg_left (hu c hc) hk.le

theorem atAge_scale (s e : ℝ) (l : ℝ × ℝ) (t : ℕ) : atAge (g.similar k a b) s e (k * l.1, k * l.2) t = k * atAge g s e l t := by
  show ramp s e (k * l.1) (k * l.2) (centre g.t t) = k * ramp s e l.1 l.2 (centre g.t t)
  unfold ramp
  split_ifs <;> ring

theorem coredRho_similar {s e : ℝ} (h : s < e) {q rc alpha : ℝ × ℝ} (hr1 : 0 < rc.1) (hr2 : 0 < rc.2) (c : Cell) :
    coredRho (g.similar k a b) (newCenter k a b center) rotation s e q (k * rc.1, k * rc.2) alpha c =
      k ^ (-atAge g s e alpha c.t) * coredRho g center rotation s e q rc alpha c := by
  unfold coredRho
  rw [ellR_similar hk, atAge_scale hk, ← mul_add, Real.mul_rpow hk.le]
  · rfl
  · exact (add_pos_of_nonneg_of_pos (ellR_nonneg _ _ _ _ _) (atAge_pos h g hr1 hr2 _)).le

theorem cored_similar (hg : g.Proper) {s e : ℝ} (h : s < e) {q rc alpha : ℝ × ℝ} (hr1 : 0 < rc.1) (hr2 : 0 < rc.2) (c : Cell) :
    coredRho (g.similar k a b) (newCenter k a b center) rotation s e q (k * rc.1, k * rc.2) alpha c /
      pixTotal (g.similar k a b) (coredRho (g.similar k a b) (newCenter k a b center) rotation s e q (k * rc.1, k * rc.2) alpha) c =
      coredRho g center rotation s e q rc alpha c / pixTotal g (coredRho g center rotation s e q rc alpha) c / k ^ 2 := by
  have h1 : pixTotal (g.similar k a b) (coredRho (g.similar k a b) (newCenter k a b center) rotation s e q (k * rc.1, k * rc.2) alpha) c =
      k ^ (-atAge g s e alpha c.t) * k ^ 2 * pixTotal g (coredRho g center rotation s e q rc alpha) c := by
    unfold pixTotal
    simp only [coredRho_similar hk h hr1 hr2, Finset.mul_sum]
    refine Finset.sum_congr rfl fun i _ => Finset.sum_congr rfl fun j _ => ?_
    show _ * (width (fun i => a + k * g.x i) i * width (fun i => b + k * g.y i) j) = _
    rw [similar_width, similar_width]
    ring
  have h2 : (0:ℝ) < k ^ (-atAge g s e alpha c.t) := Real.rpow_pos_of_pos hk _
  have h3 := pixTotal_pos hg (fun c => coredRho_pos (g := g) (center := center) (rotation := rotation) (q := q) (alpha := alpha) h hr1 hr2 c) c
  rw [h1, coredRho_similar hk h hr1 hr2]
  field_simp

theorem diskMu_similar {s e : ℝ} (h : s < e) {q rmax vmax : ℝ × ℝ} (hr1 : 0 < rmax.1) (hr2 : 0 < rmax.2) (c : Cell) :
    diskMu (g.similar k a b) (newCenter k a b center) rotation s e q (k * rmax.1, k * rmax.2) vmax c = diskMu g center rotation s e q rmax vmax c := by
  unfold diskMu
  rw [ellR_similar hk, atAge_scale hk, (frame_similar c).1]
  have h1 := ellR_nonneg g center rotation (atAge g s e q c.t) c
  have h2 := atAge_pos h g hr1 hr2 c.t
  show 27 * atAge g s e vmax c.t * _ * _ / (k * ellR g center rotation (atAge g s e q c.t) c + _) ^ 3 = _
  have h3 : 0 < ellR g center rotation (atAge g s e q c.t) c + 2 * atAge g s e rmax c.t := by linarith
  rw [show k * ellR g center rotation (atAge g s e q c.t) c + 2 * (k * atAge g s e rmax c.t) =
    k * (ellR g center rotation (atAge g s e q c.t) c + 2 * atAge g s e rmax c.t) by ring]
  field_simp

theorem fade_similar {u : ℝ} (q : ℝ) (x y α : ℝ) (c : Cell) :
    fade x y (ellR (g.similar k a b) (newCenter k a b center) rotation q c / (k * u)) α = fade x y (ellR g center rotation q c / u) α := by
  rw [ellR_similar hk, mul_div_mul_left _ _ hk.ne']

theorem normal_scale {μ σ x y : ℝ} (hσ : 0 < σ) (h : x ≤ y) : (normal (k * μ) (k * σ)).real (Ioc (k * x) (k * y)) = (normal μ σ).real (Ioc x y) := by
  rw [normal_Ioc (mul_pos hk hσ) (mul_le_mul_of_nonneg_left h hk.le), normal_Ioc hσ h, ← mul_sub, ← mul_sub, mul_div_mul_left _ _ hk.ne',
    mul_div_mul_left _ _ hk.ne']

theorem streamW_similar (hg : g.Proper) {theta muR : ℝ × ℝ} {sig : ℝ} (hσ : 0 < sig) (n : ℕ) {c : Cell} (hx : c.x < g.nx) (hy : c.y < g.ny) :
    streamW (g.similar k a b) (newCenter k a b center) rotation theta (k * muR.1, k * muR.2) (k * sig) n c =
      streamW g center rotation theta muR sig n c := by
  have hw : 0 < width g.x c.x := sub_pos.2 (hg.x _ hx)
  have hh : 0 < width g.y c.y := sub_pos.2 (hg.y _ hy)
  unfold streamW
  refine Finset.sum_congr rfl fun i _ => ?_
  have e1 : trackR theta (k * muR.1, k * muR.2) n i = k * trackR theta muR n i := by unfold trackR; ring
  have e2 : width (g.similar k a b).x c.x = k * width g.x c.x := similar_width _ _ _ _
  have e3 : width (g.similar k a b).y c.y = k * width g.y c.y := similar_width _ _ _ _
  rw [e1, e2, e3, (frame_similar c).1, (frame_similar c).2, ← normal_scale hk hσ (x := frameX g center rotation c - width g.x c.x / 2) (by linarith),
    ← normal_scale hk hσ (x := frameY g center rotation c - width g.y c.y / 2) (by linarith)]
  ring_nf

theorem stream_similar (hg : g.Proper) {theta muR : ℝ × ℝ} {sig : ℝ} (hσ : 0 < sig) (n : ℕ) {c : Cell} (hx : c.x < g.nx) (hy : c.y < g.ny) :
    streamW (g.similar k a b) (newCenter k a b center) rotation theta (k * muR.1, k * muR.2) (k * sig) n c /
      streamTotal (g.similar k a b) (newCenter k a b center) rotation theta (k * muR.1, k * muR.2) (k * sig) n /
        (width (g.similar k a b).x c.x * width (g.similar k a b).y c.y) =
      streamW g center rotation theta muR sig n c / streamTotal g center rotation theta muR sig n / (width g.x c.x * width g.y c.y) / k ^ 2 := by
  have e2 : width (g.similar k a b).x c.x = k * width g.x c.x := similar_width _ _ _ _
  have e3 : width (g.similar k a b).y c.y = k * width g.y c.y := similar_width _ _ _ _
  have e4 : streamTotal (g.similar k a b) (newCenter k a b center) rotation theta (k * muR.1, k * muR.2) (k * sig) n =
      streamTotal g center rotation theta muR sig n :=
    Finset.sum_congr rfl fun i _ => Finset.sum_congr rfl fun j _ => streamW_similar hk hg hσ n i.2 j.2
  rw [streamW_similar hk hg hσ n hx hy, e2, e3, e4, div_div _ (width g.x c.x * width g.y c.y)]
  congr 1
  ring

theorem streamMu_similar (theta lims : ℝ × ℝ) (c : Cell) :
    streamMu (g.similar k a b) (newCenter k a b center) rotation theta lims c = streamMu g center rotation theta lims c := by
  unfold streamMu frameTheta
  rw [(frame_similar c).1, (frame_similar c).2]
  have : (⟨k * frameX g center rotation c, k * frameY g center rotation c⟩ : ℂ) = (k : ℂ) * ⟨frameX g center rotation c, frameY g center rotation c⟩ := by
    apply Complex.ext <;> simp
  rw [this, Complex.arg_real_mul _ hk]

end

/-! ### Lemmas: histories -/

/-- The stored arrays are the same, but for the unit of the spatial densities. -/
structure InUnits (p p' : Param) (g : Grid) (k : ℝ) : Prop where
  ssps : p'.cube.ssps = p.cube.ssps
  f2 : p'.f2 = p.f2
  zGrid : p'.zGrid = p.zGrid
  tPars : p'.tPars = p.tPars
  logPt : p'.logPt = p.logPt
  space : ∀ A, p.logPxt = some A → ∃ (A' : Arr Num) (q : Cell → ℝ), p'.logPxt = some A' ∧ (∀ c, g.Has c → 0 < q c) ∧
    MArr g (['x','y','t'].map some) A (fun c => Num.lg (q c)) ∧ MArr g (['x','y','t'].map some) A' (fun c => Num.lg (q c / k ^ 2))
  metal : ∀ A, p.logPztx = some A → ∃ (A' : Arr Num) (F : Cell → Num), p'.logPztx = some A' ∧
    MArr g (['z','t','x','y'].map some) A F ∧ MArr g (['z','t','x','y'].map some) A' F
  mean : ∀ A, p.muV = some A → ∃ (A' : Arr Num) (F : Cell → Num), p'.muV = some A' ∧
    MArr g (['t','x','y'].map some) A F ∧ MArr g (['t','x','y'].map some) A' F
  disp : ∀ A, p.sigV = some A → ∃ (A' : Arr Num) (F : Cell → Num), p'.sigV = some A' ∧
    MArr g (['t','x','y'].map some) A F ∧ MArr g (['t','x','y'].map some) A' F

theorem marr_similar {M : List (Option Char)} {A : Arr Num} {F F' : Cell → Num} (h : MArr (g.similar k a b) M A F) (hF : ∀ c, g.Has c → F c = F' c) :
    MArr g M A F' := by
  have h1 : MArr g M A F := h
  exact h1.congr hF

theorem setPt_units (hs : p'.cube.ssps = p.cube.ssps) {lmd phi : ℝ} {q : ℝ × ℝ} {p1 : Param} (hr : p.setPt lmd phi q = .ok p1) :
    p1 = { p with tPars := p1.tPars, logPt := p1.logPt } ∧ p'.setPt lmd phi q = .ok { p' with tPars := p1.tPars, logPt := p1.logPt } := by
  have e : p'.cube.constructVolumeElement ['t'] = p.cube.constructVolumeElement ['t'] := by
    simp [IFUCube.constructVolumeElement, IFUCube.volLoop, IFUCube.volDa, hs, PyStr.replaceX]
  unfold Param.setPt at hr ⊢
  by_cases hc : (if (Param.betaAB lmd phi).1 > 1.0 then 1 else 0) + (if (Param.betaAB lmd phi).2 > 1 then 1 else 0) < 1
  · simp only [hc, if_true] at hr
    cases hr
  · simp only [hc, if_false] at hr ⊢
    obtain ⟨x1, q1, hr⟩ := bind_ok hr
    obtain ⟨x2, q2, hr⟩ := bind_ok hr
    obtain ⟨x3, q3, hr⟩ := bind_ok hr
    obtain ⟨x4, q4, hr⟩ := bind_ok hr
    obtain ⟨x5, q5, hr⟩ := bind_ok hr
    obtain ⟨x6, q6, hr⟩ := bind_ok hr
    obtain ⟨x7, q7, hr⟩ := bind_ok hr
    cases hr
    rw [hs, e]
    exact ⟨rfl, by simp only [q1, q2, q3, q4, q5, q6, q7, Py.ok_bind]⟩

theorem InUnits.setPt (hU : InUnits p p' g k) {lmd phi : ℝ} {q : ℝ × ℝ} {p1 p1' : Param} (hr : p.setPt lmd phi q = .ok p1)
    (hr' : p'.setPt lmd phi q = .ok p1') : InUnits p1 p1' g k := by
  obtain ⟨e1, e2⟩ := setPt_units hU.ssps hr
  obtain rfl : _ = p1' := Except.ok.inj (e2.symm.trans hr')
  rw [e1]
  exact ⟨hU.ssps, hU.f2, hU.zGrid, rfl, rfl, hU.space, hU.metal, hU.mean, hU.disp⟩

theorem frameX_off (hk : 0 < k) (hx : ∃ c, g.Has c ∧ frameX g center rotation c ≠ 0) :
    ∃ c, (g.similar k a b).Has c ∧ frameX (g.similar k a b) (newCenter k a b center) rotation c ≠ 0 := by
  obtain ⟨c, hc, h⟩ := hx
  exact ⟨c, hc, by rw [(frame_similar c).1]; exact mul_ne_zero hk.ne' h⟩

theorem DiskCall.inUnits_valid (hk : 0 < k) {c : DiskCall} (hv : c.Valid) : (c.inUnits k).Valid := by
  cases c with
  | setPxt q rc alpha => exact ⟨hv.1, ⟨mul_pos hk hv.2.1.1, mul_pos hk hv.2.1.2⟩, hv.2.2⟩
  | setMuV q rmax vmax => exact ⟨hv.1, ⟨mul_pos hk hv.2.1.1, mul_pos hk hv.2.1.2⟩, hv.2.2⟩
  | _ => exact hv

theorem StreamCall.inUnits_valid (hk : 0 < k) {c : StreamCall} (hv : c.Valid) : (c.inUnits k).Valid := by
  cases c with
  | setPxt theta muR sig n => exact ⟨hv.1, hv.2.1, hv.2.2.1, mul_pos hk hv.2.2.2.1, hv.2.2.2.2⟩
  | _ => exact hv

theorem DiskCall.inUnits_field (k : ℝ) (c : DiskCall) : (c.inUnits k).field = c.field := by cases c <;> rfl
theorem StreamCall.inUnits_field (k : ℝ) (c : StreamCall) : (c.inUnits k).field = c.field := by cases c <;> rfl

theorem InUnits.disk (h : Sound p g f2 center rotation) (h' : Sound p' (g.similar k a b) f2 (newCenter k a b center) rotation) (hU : InUnits p p' g k)
    (hg : g.Proper) (hk : 0 < k) (hx : ∃ c, g.Has c ∧ frameX g center rotation c ≠ 0) (c : DiskCall) (hv : c.Valid)
    (ht : p.logPt ≠ none ∨ c.field = .age ∨ c.field = .metal) {p1 p1' : Param} (hr : c.run p = .ok p1) (hr' : (c.inUnits k).run p' = .ok p1') :
    InUnits p1 p1' g k := by
  have hg' := hg.similar hk a b
  obtain ⟨u, -, hm⟩ := h.built.amax hg
  have hm0 : 0 < u := by
    obtain ⟨c, hc, hne⟩ := hx
    exact (abs_pos.2 hne).trans_le (hm.2 c hc)
  have hm' := maxX_similar (a := a) (b := b) hk hm
  have hm0' := mul_pos hk hm0
  have hA : ∀ {s e : ℝ}, Aged p s e → Aged p' s e := fun h => ⟨hU.tPars.trans h.1, h.2⟩
  have hv' := DiskCall.inUnits_valid hk hv
  cases c with
  | setPt lmd phi q => exact hU.setPt hr hr'
  | setPxt q rc alpha =>
    obtain ⟨s, e, ha⟩ := h.aged (by simpa [DiskCall.field] using ht)
    obtain ⟨v1, v2, v3⟩ := hv
    obtain ⟨A, k1, k2⟩ := disk_setPxt h.built hg ha v1 v2 v3
    obtain ⟨w1, w2, w3⟩ := hv'
    obtain ⟨A', k1', k2'⟩ := disk_setPxt h'.built hg' (hA ha) w1 w2 w3
    obtain rfl : _ = p1 := Except.ok.inj (k1.symm.trans hr)
    obtain rfl : _ = p1' := Except.ok.inj (k1'.symm.trans hr')
    refine ⟨hU.ssps, hU.f2, hU.zGrid, hU.tPars, hU.logPt, fun B hB => ?_, hU.metal, hU.mean, hU.disp⟩
    cases hB
    have hρp : ∀ c, 0 < coredRho g center rotation s e q rc alpha c := fun c => coredRho_pos ha.2 v2.1 v2.2 c
    refine ⟨A', _, rfl, fun c hc => ?_, k2, marr_similar k2' fun c hc => ?_⟩
    · exact div_pos (hρp c) (pixTotal_pos hg hρp c)
    · rw [cored_similar hk hg ha.2 v2.1 v2.2]
  | setTDep q alpha tIn tOut tMin tMax =>
    obtain ⟨v1, v2, v3, v4, v5, v6⟩ := hv
    obtain ⟨A, B, k1, k3, k2⟩ := disk_setTDep h.built hg v1 v2 v3 v4 v5 v6 hm hm0
    obtain ⟨A', B', k1', k3', k2'⟩ := disk_setTDep h'.built hg' v1 v2 v3 v4 v5 v6 hm' hm0'
    obtain rfl : _ = p1 := Except.ok.inj (k1.symm.trans hr)
    obtain rfl : _ = p1' := Except.ok.inj (k1'.symm.trans hr')
    refine ⟨hU.ssps, hU.f2, hU.zGrid, hU.tPars, hU.logPt, hU.space, fun B hB => ?_, hU.mean, hU.disp⟩
    cases hB
    refine ⟨B', _, rfl, k2, marr_similar k2' fun c hc => ?_⟩
    have e : A'.get [c.x, c.y] = A.get [c.x, c.y] := by
      have j1 := k3.2 _ hc
      have j2 := k3'.2 c hc
      beta_reduce at j1 j2
      rw [fade_similar hk] at j2
      exact Eq.trans j2 j1.symm
    rw [e, hU.zGrid]; rfl
  | setMuV q rmax vmax =>
    obtain ⟨s, e, ha⟩ := h.aged (by simpa [DiskCall.field] using ht)
    obtain ⟨v1, v2, v3⟩ := hv
    obtain ⟨A, k1, k2⟩ := disk_setMuV h.built ha v1 v2 v3
    obtain ⟨w1, w2, w3⟩ := hv'
    obtain ⟨A', k1', k2'⟩ := disk_setMuV h'.built (hA ha) w1 w2 w3
    obtain rfl : _ = p1 := Except.ok.inj (k1.symm.trans hr)
    obtain rfl : _ = p1' := Except.ok.inj (k1'.symm.trans hr')
    refine ⟨hU.ssps, hU.f2, hU.zGrid, hU.tPars, hU.logPt, hU.space, hU.metal, fun B hB => ?_, hU.disp⟩
    cases hB
    refine ⟨A', _, rfl, k2, marr_similar k2' fun c hc => ?_⟩
    rw [diskMu_similar hk ha.2 v2.1 v2.2]
  | setSigV q alpha sIn sOut =>
    obtain ⟨s, e, ha⟩ := h.aged (by simpa [DiskCall.field] using ht)
    obtain ⟨v1, v2, v3, v4⟩ := hv
    obtain ⟨A, k1, k2⟩ := disk_setSigV h.built hg ha v1 v2 v3 v4 hm hm0
    obtain ⟨A', k1', k2'⟩ := disk_setSigV h'.built hg' (hA ha) v1 v2 v3 v4 hm' hm0'
    obtain rfl : _ = p1 := Except.ok.inj (k1.symm.trans hr)
    obtain rfl : _ = p1' := Except.ok.inj (k1'.symm.trans hr')
    refine ⟨hU.ssps, hU.f2, hU.zGrid, hU.tPars, hU.logPt, hU.space, hU.metal, hU.mean, fun B hB => ?_⟩
    cases hB
    refine ⟨A', _, rfl, k2, marr_similar k2' fun c hc => ?_⟩
    unfold diskSig
    rw [fade_similar hk]; rfl

theorem InUnits.calls (hg : g.Proper) (hk : 0 < k) (hx : ∃ c, g.Has c ∧ frameX g center rotation c ≠ 0) :
    ∀ (ks : List DiskCall) (p p' p1 : Param), Sound p g f2 center rotation → Sound p' (g.similar k a b) f2 (newCenter k a b center) rotation → InUnits p p' g k →
      (∀ c ∈ ks, c.Valid) → runAll DiskCall.run p ks = .ok p1 → ∃ p1', runAll DiskCall.run p' (ks.map (DiskCall.inUnits k)) = .ok p1' ∧
        Sound p1 g f2 center rotation ∧ Sound p1' (g.similar k a b) f2 (newCenter k a b center) rotation ∧ InUnits p1 p1' g k ∧ p1.cube = p.cube
  | [], p, p', p1, h, h', hU, _, hr => by cases hr; exact ⟨p', rfl, h, h', hU, rfl⟩
  | c :: ks, p, p', p1, h, h', hU, hv, hr => by
    have hc := hv c List.mem_cons_self
    have : (DiskCall.run p c >>= fun q => runAll DiskCall.run q ks) = .ok p1 := hr
    by_cases ht : p.logPt ≠ none ∨ c.field = .age ∨ c.field = .metal
    · obtain ⟨p2, k1, k2⟩ := h.disk hg hx c hc ht
      obtain ⟨p2', k1', k2'⟩ := h'.disk (hg.similar hk a b) (frameX_off hk hx) (c.inUnits k) (DiskCall.inUnits_valid hk hc)
        (by rw [DiskCall.inUnits_field, hU.logPt]; exact ht)
      rw [k1] at this
      obtain ⟨p1', e1, e2, e3, e4, e5⟩ := InUnits.calls hg hk hx ks p2 p2' p1 k2 k2' (InUnits.disk h h' hU hg hk hx c hc ht k1 k1')
        (fun c' hc' => hv c' (List.mem_cons_of_mem _ hc')) this
      refine ⟨p1', ?_, e2, e3, e4, e5.trans (disk_writes k1).cube⟩
      show ((c.inUnits k).run p' >>= fun q => runAll DiskCall.run q (ks.map (DiskCall.inUnits k))) = .ok p1'
      rw [k1']; exact e1
    · push Not at ht
      rw [h.disk_early c hc ht.1 ht.2] at this
      cases this

theorem InUnits.stream {s s' s1 s1' : Stream} (h : SoundStream s g f2 center rotation)
    (h' : SoundStream s' (g.similar k a b) f2 (newCenter k a b center) rotation) (hU : InUnits s.base s'.base g k) (hθ : s'.thetaLims = s.thetaLims)
    (hg : g.Proper) (hk : 0 < k) (c : StreamCall) (hv : c.Valid)
    (ht : s.base.logPxt ≠ none ∨ c.field ≠ .mean) (hr : c.run s = .ok s1) (hr' : (c.inUnits k).run s' = .ok s1') :
    InUnits s1.base s1'.base g k ∧ s1'.thetaLims = s1.thetaLims := by
  have hg' := hg.similar hk a b
  have hv' := StreamCall.inUnits_valid hk hv
  cases c with
  | setPt lmd phi q =>
    obtain ⟨p1, j1, j2⟩ := bind_ok hr
    obtain ⟨p1', j1', j2'⟩ := bind_ok hr'
    cases j2
    cases j2'
    exact ⟨hU.setPt j1 j1', hθ⟩
  | setPxt theta muR sig n =>
    obtain ⟨v1, v2, v3, v4, v5⟩ := hv
    obtain ⟨w1, w2, w3, w4, w5⟩ := hv'
    obtain ⟨A, k1, k2⟩ := stream_setPxt h.base.built hg (muR := muR) (le_min v1.1 v2.1) (max_le v1.2 v2.2) v3 v4 v5
    obtain ⟨A', k1', k2'⟩ := stream_setPxt h'.base.built hg' (muR := (k * muR.1, k * muR.2)) (le_min v1.1 v2.1) (max_le v1.2 v2.2) v3 w4 v5
    obtain rfl : _ = s1 := Except.ok.inj (k1.symm.trans hr)
    obtain rfl : _ = s1' := Except.ok.inj (k1'.symm.trans hr')
    refine ⟨⟨hU.ssps, hU.f2, hU.zGrid, hU.tPars, hU.logPt, fun B hB => ?_, hU.metal, hU.mean, hU.disp⟩, rfl⟩
    cases hB
    have hT := streamTotal_pos (center := center) (rotation := rotation) (theta := theta) (muR := muR) hg v4 v5
    refine ⟨A', _, rfl, fun c hc => ?_, k2, marr_similar k2' fun c hc => ?_⟩
    · exact div_pos (div_pos (streamW_pos hg v4 v5 hc.2.2.1 hc.2.2.2.1) hT)
        (mul_pos (sub_pos.2 (hg.x _ hc.2.2.1)) (sub_pos.2 (hg.y _ hc.2.2.2.1)))
    · rw [stream_similar hk hg v4 n hc.2.2.1 hc.2.2.2.1]
  | setTDep τ =>
    obtain ⟨B, k1, k2⟩ := stream_setTDep h.base.built hg τ
    obtain ⟨B', k1', k2'⟩ := stream_setTDep h'.base.built hg' τ
    obtain rfl : _ = s1 := Except.ok.inj (k1.symm.trans hr)
    obtain rfl : _ = s1' := Except.ok.inj (k1'.symm.trans hr')
    refine ⟨⟨hU.ssps, hU.f2, hU.zGrid, hU.tPars, hU.logPt, hU.space, fun B hB => ?_, hU.mean, hU.disp⟩, hθ⟩
    cases hB
    refine ⟨B', _, rfl, k2, marr_similar k2' fun c hc => ?_⟩
    rw [hU.zGrid]; rfl
  | setMuV lims =>
    have h1 : s.base.logPxt ≠ none := by simpa [StreamCall.field] using ht
    obtain ⟨θ, e⟩ := Option.ne_none_iff_exists'.1 fun e => h1 (h.space.1 e)
    obtain ⟨A, k1, k2⟩ := stream_setMuV h.base.built (lims := lims) e (h.theta θ e)
    obtain ⟨A', k1', k2'⟩ := stream_setMuV h'.base.built (lims := lims) (hθ.trans e) (h.theta θ e)
    obtain rfl : _ = s1 := Except.ok.inj (k1.symm.trans hr)
    obtain rfl : _ = s1' := Except.ok.inj (k1'.symm.trans hr')
    refine ⟨⟨hU.ssps, hU.f2, hU.zGrid, hU.tPars, hU.logPt, hU.space, hU.metal, fun B hB => ?_, hU.disp⟩, hθ⟩
    cases hB
    refine ⟨A', _, rfl, k2, marr_similar k2' fun c hc => ?_⟩
    rw [streamMu_similar hk]
  | setSigV sigV =>
    obtain ⟨A, k1, k2⟩ := stream_setSigV h.base.built sigV
    obtain ⟨A', k1', k2'⟩ := stream_setSigV h'.base.built sigV
    obtain rfl : _ = s1 := Except.ok.inj (k1.symm.trans hr)
    obtain rfl : _ = s1' := Except.ok.inj (k1'.symm.trans hr')
    refine ⟨⟨hU.ssps, hU.f2, hU.zGrid, hU.tPars, hU.logPt, hU.space, hU.metal, hU.mean, fun B hB => ?_⟩, hθ⟩
    cases hB
    exact ⟨A', _, rfl, k2, k2'⟩

theorem InUnits.streamCalls (hg : g.Proper) (hk : 0 < k) :
    ∀ (ks : List StreamCall) (s s' s1 : Stream), SoundStream s g f2 center rotation → SoundStream s' (g.similar k a b) f2 (newCenter k a b center) rotation →
      InUnits s.base s'.base g k → s'.thetaLims = s.thetaLims → (∀ c ∈ ks, c.Valid) → runAll StreamCall.run s ks = .ok s1 →
      ∃ s1', runAll StreamCall.run s' (ks.map (StreamCall.inUnits k)) = .ok s1' ∧
        SoundStream s1 g f2 center rotation ∧ SoundStream s1' (g.similar k a b) f2 (newCenter k a b center) rotation ∧ InUnits s1.base s1'.base g k ∧
        s1.base.cube = s.base.cube
  | [], s, s', s1, h, h', hU, _, _, hr => by cases hr; exact ⟨s', rfl, h, h', hU, rfl⟩
  | c :: ks, s, s', s1, h, h', hU, hθ, hv, hr => by
    have hc := hv c List.mem_cons_self
    have : (StreamCall.run s c >>= fun q => runAll StreamCall.run q ks) = .ok s1 := hr
    by_cases ht : s.base.logPxt ≠ none ∨ c.field ≠ .mean
    · obtain ⟨s2, k1, k2⟩ := h.step hg c hc ht
      obtain ⟨s2', k1', k2'⟩ := h'.step (hg.similar hk a b) (c.inUnits k) (StreamCall.inUnits_valid hk hc) (by
        rw [StreamCall.inUnits_field]
        refine ht.imp (fun h1 => ?_) id
        obtain ⟨A, e⟩ := Option.ne_none_iff_exists'.1 h1
        obtain ⟨A', -, e', -⟩ := hU.space A e
        rw [e']; simp)
      rw [k1] at this
      obtain ⟨f1, f2⟩ := InUnits.stream h h' hU hθ hg hk c hc ht k1 k1'
      obtain ⟨s1', e1, e2, e3, e4, e5⟩ := InUnits.streamCalls hg hk ks s2 s2' s1 k2 k2' f1 f2
        (fun c' hc' => hv c' (List.mem_cons_of_mem _ hc')) this
      refine ⟨s1', ?_, e2, e3, e4, e5.trans (stream_writes k1).1.cube⟩
      show ((c.inUnits k).run s' >>= fun q => runAll StreamCall.run q (ks.map (StreamCall.inUnits k))) = .ok s1'
      rw [k1']; exact e1
    · exfalso
      push Not at ht
      rcases stream_history hg [c] s h (by simpa using hc) with ⟨s2, j1, -⟩ | ⟨j1, -⟩
      · cases c with
        | setMuV lims =>
          have e : s.thetaLims = none := h.space.2 ht.1
          simp only [StreamCall.run, Stream.setMuV, e] at this
          obtain ⟨_, j, _⟩ := bind_ok this
          obtain ⟨_, _, j⟩ := bind_ok j
          obtain ⟨_, j, _⟩ := bind_ok j
          cases j
        | _ => simp [StreamCall.field] at ht
      · cases hq : StreamCall.run s c with
        | error e => rw [hq] at this; cases this
        | ok s2 => simp only [runAll, hq, Py.ok_bind] at j1; cases j1

/-- Two components with the same arrays are the same component in other coordinates. -/
theorem InUnits.paramIs (hU : InUnits p p' g k) (h : ParamIs p g m L) (hc : CubeIs p'.cube (g.similar k a b)) (hk : 0 < k)
    (hpos : ∀ t < g.nt, ∀ x < g.nx, ∀ y < g.ny, 0 < m.px t x y) : ParamIs p' (g.similar k a b) (m.rescaled k) L := by
  have hk2 : 0 < k ^ 2 := pow_pos hk 2
  refine ⟨h.proper.similar hk a b, hc, ⟨h.norm.pt, fun t x y => div_nonneg (h.norm.px t x y) hk2.le, h.norm.pz, h.norm.sig, h.norm.sumT, fun t ht => ?_,
    h.norm.sumZ⟩, ?_, ?_, ?_, ?_, ?_, ?_, h.lightNonneg⟩
  · rw [← h.norm.sumX t ht]
    refine Finset.sum_congr rfl fun x _ => Finset.sum_congr rfl fun y _ => ?_
    show m.px t x y / k ^ 2 * (width (fun i => a + k * g.x i) x * width (fun i => b + k * g.y i) y) = _
    rw [similar_width, similar_width]
    field_simp
  · rw [hU.logPt]; exact h.logPt
  · obtain ⟨A, e, hA⟩ := h.logPxt
    obtain ⟨A', q, e', hq, k1, k2⟩ := hU.space A e
    refine ⟨A', e', ?_⟩
    have hA' := larr_iff.1 ((isArr_cond_iff (by decide) (by decide)).1 hA)
    refine (isArr_cond_iff (g := g) (by decide) (by decide)).2 (larr_iff.2 (MArr.congr k2 fun c hc => ?_))
    have i1 := hA'.2 c hc
    have i2 := k1.2 c hc
    have i3 : Num.lg (q c) = Num.lg (m.px c.t c.x c.y) := i2.symm.trans i1
    have i4 : q c = m.px c.t c.x c.y := by
      have hm := hpos c.t hc.1 c.x hc.2.2.1 c.y hc.2.2.2.1
      rw [Num.lg_pos (hq c hc), Num.lg_pos hm] at i3
      exact Real.log_injOn_pos (hq c hc) hm (Num.fin.inj i3)
    rw [i4]; rfl
  · obtain ⟨A, e, hA⟩ := h.logPztx
    obtain ⟨A', q, e', k1, k2⟩ := hU.metal A e
    refine ⟨A', e', ?_⟩
    have hA' := larr_iff.1 ((isArr_cond_iff (by decide) (by decide)).1 hA)
    refine (isArr_cond_iff (g := g) (by decide) (by decide)).2 (larr_iff.2 (MArr.congr k2 fun c hc => ?_))
    exact (k1.2 c hc).symm.trans (hA'.2 c hc)
  · obtain ⟨A, e, hA⟩ := h.muV
    obtain ⟨A', q, e', k1, k2⟩ := hU.mean A e
    refine ⟨A', e', ?_⟩
    refine MArr.isArr (g := g) (w := ['t','x']) (by decide) (MArr.congr k2 fun c hc => ?_)
    exact (k1.2 c hc).symm.trans (hA.2 c hc)
  · obtain ⟨A, e, hA⟩ := h.sigV
    obtain ⟨A', q, e', k1, k2⟩ := hU.disp A e
    refine ⟨A', e', ?_⟩
    refine MArr.isArr (g := g) (w := ['t','x']) (by decide) (MArr.congr k2 fun c hc => ?_)
    exact (k1.2 c hc).symm.trans (hA.2 c hc)
  · rw [hU.ssps]; exact h.light

theorem init_units {cube cube' : IFUCube} (hc : CubeIs cube g) (hc' : CubeIs cube' (g.similar k a b)) (hs : cube'.ssps = cube.ssps) (hg : g.Proper) (hk : 0 < k)
    (f2 : ℝ) (center : ℝ × ℝ) (rotation : ℝ) : ∃ p p', Param.init f2 cube center rotation = .ok p ∧ p.cube = cube ∧ Sound p g f2 center rotation ∧
      Param.init f2 cube' (newCenter k a b center) rotation = .ok p' ∧ p'.cube = cube' ∧ Sound p' (g.similar k a b) f2 (newCenter k a b center) rotation ∧
      InUnits p p' g k ∧ (∀ f : Field, ∀ a ∈ f.get p, a = none) ∧ ∀ f : Field, ∀ a ∈ f.get p', a = none := by
  obtain ⟨p0, k1, k2, k3, k4⟩ := init_sound hc hg f2 center rotation
  obtain ⟨p0', k1', k2', k3', k4'⟩ := init_sound hc' (hg.similar hk a b) f2 (newCenter k a b center) rotation
  have none_of : ∀ f : Field, ∀ a ∈ f.get p0, ∀ A, a ≠ some A := fun f a ha A e => by rw [k4 f a ha] at e; cases e
  have l : p0.logPt = none := k4 .age _ (by simp [Field.get])
  have l' : p0'.logPt = none := k4' .age _ (by simp [Field.get])
  refine ⟨p0, p0', k1, k2, k3, k1', k2', k3', ⟨by rw [k2', k2, hs], by rw [k3'.built.f2, k3.built.f2], ?_, by rw [k3'.unaged l', k3.unaged l],
    by rw [l, l'], fun A hA => absurd hA (none_of .space _ (by simp [Field.get]) A), fun A hA => absurd hA (none_of .metal _ (by simp [Field.get]) A),
    fun A hA => absurd hA (none_of .mean _ (by simp [Field.get]) A), fun A hA => absurd hA (none_of .disp _ (by simp [Field.get]) A)⟩, k4, k4'⟩
  have e1 := k3.built.zGrid
  have e2 := k3'.built.zGrid
  rw [k2] at e1
  rw [k2'] at e2
  unfold Param.zInterpGrid at e1 e2
  rw [hs] at e2
  exact Except.ok.inj (e2.symm.trans e1)

/-! ### C83 -/

/-- **C83**, growing disks. Take the cube, the centre and the setter calls of any growing disk to other sky coordinates `x ↦ a + k x`, `y ↦ b + k y`, converting
the core radii and the radii of the rotation curve. The calls succeed again and all answers are the same but for the coordinates. -/
theorem C83_disk_units {cube cube' : IFUCube} (hc : CubeIs cube g) (hc' : CubeIs cube' (g.similar k a b)) (hs : cube'.ssps = cube.ssps) (hg : g.Proper) (hk : 0 < k)
    (hl : IsArr g ['t','z'] cube.ssps.lightWeights (fun c => .fin (L c.t c.z))) (hL : ∀ t z, 0 < L t z)
    (hx : ∃ c, g.Has c ∧ frameX g center rotation c ≠ 0) (ks : List DiskCall) (hv : ∀ k ∈ ks, k.Valid) (hall : ∀ f : Field, ∃ k ∈ ks, k.field = f)
    (hp : makeDisk f2 cube center rotation ks = .ok p) :
    ∃ p', makeDisk f2 cube' (a + k * center.1, b + k * center.2) rotation (ks.map (DiskCall.inUnits k)) = .ok p' ∧ SameSky p p' g k a b := by
  obtain ⟨p0, p0', k1, k2, k3, k1', k2', k3', hU, k4, -⟩ := init_units hc hc' hs hg hk f2 center rotation
  have hr : runAll DiskCall.run p0 ks = .ok p := by
    unfold makeDisk at hp
    rwa [k1] at hp
  obtain ⟨p', e1, e2, e3, e4, e5⟩ := InUnits.calls hg hk hx ks p0 p0' p k3 k3' hU hv hr
  refine ⟨p', ?_, ?_⟩
  · unfold makeDisk
    show (Param.init f2 cube' (newCenter k a b center) rotation >>= _) = _
    rw [k1']; exact e1
  have hf : ∀ f : Field, none ∉ f.get p := fun f => by
    rw [(set_fields (base := fun p => p) (fun {s s' k} h => disk_writes h) ks p0 p hr (fun f => Or.inr (k4 f)) f).1]
    exact Or.inr (hall f)
  obtain ⟨m, i1, i2, i3⟩ := e2.paramIs hg (by rw [e5, k2]; exact hl) (fun t z => (hL t z).le) hf
  exact i1.sameSky (e4.paramIs i1 e3.built.cubeIs hk i2) (i1.shines (fun t _ z _ => hL t z) i2 i3) hk e4.f2

/-- **C83**, streams: the radii and the width of the track are converted. -/
theorem C83_stream_units {cube cube' : IFUCube} (hc : CubeIs cube g) (hc' : CubeIs cube' (g.similar k a b)) (hs : cube'.ssps = cube.ssps) (hg : g.Proper) (hk : 0 < k)
    (hl : IsArr g ['t','z'] cube.ssps.lightWeights (fun c => .fin (L c.t c.z))) (hL : ∀ t z, 0 < L t z)
    (ks : List StreamCall) (hv : ∀ k ∈ ks, k.Valid) (hall : ∀ f : Field, ∃ k ∈ ks, k.field = f) {s : Stream}
    (hp : makeStream f2 cube center rotation ks = .ok s) :
    ∃ s', makeStream f2 cube' (a + k * center.1, b + k * center.2) rotation (ks.map (StreamCall.inUnits k)) = .ok s' ∧ SameSky s.base s'.base g k a b := by
  obtain ⟨p0, p0', k1, k2, k3, k1', k2', k3', hU, k4, k4'⟩ := init_units hc hc' hs hg hk f2 center rotation
  have hr : runAll StreamCall.run ⟨p0, none⟩ ks = .ok s := by
    unfold makeStream Stream.init at hp
    rwa [k1] at hp
  have n : p0.logPxt = none := k4 .space _ (by simp [Field.get])
  have n' : p0'.logPxt = none := k4' .space _ (by simp [Field.get])
  obtain ⟨s', e1, e2, e3, e4, e5⟩ := InUnits.streamCalls (f2 := f2) (center := center) (rotation := rotation) (a := a) (b := b) hg hk ks ⟨p0, none⟩ ⟨p0', none⟩ s
    ⟨k3, by simp, by simp [n]⟩ ⟨k3', by simp, by simp [n']⟩ hU rfl hv hr
  refine ⟨s', ?_, ?_⟩
  · unfold makeStream Stream.init
    show ((Param.init f2 cube' (newCenter k a b center) rotation >>= _) >>= _) = _
    rw [k1']; exact e1
  have hf : ∀ f : Field, none ∉ f.get s.base := fun f => by
    rw [(set_fields (base := fun s => s.base) (fun {s s' k} h => (stream_writes h).1) ks ⟨p0, none⟩ s hr (fun f => Or.inr (k4 f)) f).1]
    exact Or.inr (hall f)
  obtain ⟨m, i1, i2, i3⟩ := e2.base.paramIs hg (by rw [e5, k2]; exact hl) (fun t z => (hL t z).le) hf
  exact i1.sameSky (e4.paramIs i1 e3.base.built.cubeIs hk i2) (i1.shines (fun t _ z _ => hL t z) i2 i3) hk e4.f2

/-! ### The hypotheses are met -/

theorem similar_cubeGrid (nt nz : ℕ) (t z : ℕ → ℝ) (nx ny nv : ℕ) (x1rng x2rng vrng : ℝ × ℝ) (k a b : ℝ) :
    (cubeGrid nt nz t z nx ny nv x1rng x2rng vrng).similar k a b =
      cubeGrid nt nz t z nx ny nv (a + k * x1rng.1, a + k * x1rng.2) (b + k * x2rng.1, b + k * x2rng.2) vrng := by
  unfold Grid.similar cubeGrid evenEdges
  dsimp only
  congr 1
  · funext i; ring
  · funext i; ring

/-- The cube in other coordinates: `IFUCube` with converted ranges. -/
theorem C83_cube {s : SSPs} {nt nz : ℕ} {t z : ℕ → ℝ} (hs : SspsAre s nt nz t z) (nx ny nv : ℕ) (hx : 0 < nx) (hy : 0 < ny) (hv : 0 < nv)
    (x1rng x2rng vrng : ℝ × ℝ) (k a b : ℝ) : ∃ cube cube', IFUCube.init s nx ny nv x1rng x2rng vrng = .ok cube ∧
      IFUCube.init s nx ny nv (a + k * x1rng.1, a + k * x1rng.2) (b + k * x2rng.1, b + k * x2rng.2) vrng = .ok cube' ∧ cube'.ssps = cube.ssps ∧
      CubeIs cube (cubeGrid nt nz t z nx ny nv x1rng x2rng vrng) ∧
      CubeIs cube' ((cubeGrid nt nz t z nx ny nv x1rng x2rng vrng).similar k a b) := by
  obtain ⟨c, h1, h2, h3, -⟩ := C03_constructor hs nx ny nv hx hy hv x1rng x2rng vrng
  obtain ⟨c', h1', h2', h3', -⟩ := C03_constructor hs nx ny nv hx hy hv (a + k * x1rng.1, a + k * x1rng.2) (b + k * x2rng.1, b + k * x2rng.2) vrng
  exact ⟨c, c', h1, h1', by rw [h3, h3'], h2, by rw [similar_cubeGrid]; exact h2'⟩

/-- The demonstration disk in coordinates three times finer, with another origin. -/
example : ∃ (cube cube' : IFUCube) (p p' : Param), CubeIs cube demoGrid ∧ CubeIs cube' (demoGrid.similar 3 7 (-2)) ∧
    makeDisk 1 cube (0, 3 / 2) 0 demoCalls = .ok p ∧ makeDisk 1 cube' (7 + 3 * 0, -2 + 3 * (3 / 2)) 0 (demoCalls.map (DiskCall.inUnits 3)) = .ok p' ∧
    SameSky p p' demoGrid 3 7 (-2) := by
  obtain ⟨cube, cube', h1, h1', hs, hc, hc'⟩ := C83_cube demoSSPs_are 5 6 4 (by norm_num) (by norm_num) (by norm_num) (-1, 1) (0, 3) (-100, 300) 3 7 (-2)
  have es : cube.ssps = demoSSPs := by
    obtain ⟨c, i1, -, i2⟩ := demoCube_exists
    have : c = cube := Except.ok.inj (i1.symm.trans h1)
    rw [← this]; exact i2
  obtain ⟨p0, k1, k2, k3, k4⟩ := init_sound hc demoGrid_proper 1 (0, 3 / 2) 0
  have off : ∃ c, demoGrid.Has c ∧ frameX demoGrid (0, 3 / 2) 0 c ≠ 0 :=
    ⟨⟨0, 0, 0, 0, 0⟩, by simp [Grid.Has, demoGrid, cubeGrid], by simp [frameX, centre, demoGrid, cubeGrid, evenEdges]; norm_num⟩
  rcases disk_history demoGrid_proper off _ p0 k3 demoCalls_valid with ⟨p, j1, j2, j3⟩ | ⟨-, -, j⟩
  · have hp : makeDisk 1 cube (0, 3 / 2) 0 demoCalls = .ok p := by
      unfold makeDisk
      rw [k1]; exact j1
    obtain ⟨p', e1, e2⟩ := C83_disk_units (L := fun t _ => t + 1) hc hc' hs demoGrid_proper (by norm_num : (0:ℝ) < 3)
      (by rw [es]; exact ⟨rfl, fun c _ => rfl⟩) (fun t _ => by positivity) off demoCalls demoCalls_valid
      (fun f => by cases f <;> simp [demoCalls, DiskCall.field]) hp
    exact ⟨cube, cube', p, p', hc, hc', hp, e1, e2⟩
  · exfalso
    obtain ⟨pre, k, post, j1, j2, j3⟩ := j
    cases pre with
    | nil => simp only [List.nil_append, demoCalls, List.cons.injEq] at j1; rw [← j1.1] at j3; exact j3.1 rfl
    | cons k' pre =>
      simp only [List.cons_append, demoCalls, List.cons.injEq] at j1
      exact j2 k' (by simp) (by rw [← j1.1]; rfl)

/-- A demonstration stream. -/
example : ∃ (cube cube' : IFUCube) (s s' : Stream) (ks : List StreamCall), CubeIs cube demoGrid ∧ CubeIs cube' (demoGrid.similar 3 7 (-2)) ∧
    makeStream 1 cube (0, 3 / 2) 0 ks = .ok s ∧ makeStream 1 cube' (7 + 3 * 0, -2 + 3 * (3 / 2)) 0 (ks.map (StreamCall.inUnits 3)) = .ok s' ∧
    SameSky s.base s'.base demoGrid 3 7 (-2) := by
  obtain ⟨cube, cube', h1, h1', hs, hc, hc'⟩ := C83_cube demoSSPs_are 5 6 4 (by norm_num) (by norm_num) (by norm_num) (-1, 1) (0, 3) (-100, 300) 3 7 (-2)
  have es : cube.ssps = demoSSPs := by
    obtain ⟨c, i1, -, i2⟩ := demoCube_exists
    have : c = cube := Except.ok.inj (i1.symm.trans h1)
    rw [← this]; exact i2
  have hpi := Real.two_le_pi
  let ks : List StreamCall := [.setPt 15 0.5 (0.05, 0.95), .setPxt (0, 1) (1 / 2, 1) (1 / 4) 10, .setTDep 5, .setMuV (-50, 100), .setSigV 20]
  have hv : ∀ c ∈ ks, c.Valid := by
    intro c hc
    simp only [ks, List.mem_cons, List.not_mem_nil, or_false] at hc
    rcases hc with rfl | rfl | rfl | rfl | rfl
    · simp only [StreamCall.Valid, ValidSfh]; norm_num
    · refine ⟨⟨by linarith, by linarith⟩, ⟨?_, ?_⟩, by norm_num, by norm_num, by norm_num⟩
      · show -Real.pi ≤ 1; linarith
      · show 1 ≤ Real.pi; linarith
    · trivial
    · trivial
    · show (0:ℝ) < 20; norm_num
  obtain ⟨p0, k1, k2, k3, k4⟩ := init_sound hc demoGrid_proper 1 (0, 3 / 2) 0
  have n : p0.logPxt = none := k4 .space _ (by simp [Field.get])
  rcases stream_history demoGrid_proper ks ⟨p0, none⟩ ⟨k3, by simp, by simp [n]⟩ hv with ⟨s, j1, j2, j3⟩ | ⟨-, -, j⟩
  · have hp : makeStream 1 cube (0, 3 / 2) 0 ks = .ok s := by
      unfold makeStream Stream.init
      rw [k1]; exact j1
    obtain ⟨s', e1, e2⟩ := C83_stream_units (L := fun t _ => t + 1) hc hc' hs demoGrid_proper (by norm_num : (0:ℝ) < 3)
      (by rw [es]; exact ⟨rfl, fun c _ => rfl⟩) (fun t _ => by positivity) ks hv
      (fun f => by cases f <;> simp [ks, StreamCall.field]) hp
    exact ⟨cube, cube', s, s', ks, hc, hc', hp, e1, e2⟩
  · exfalso
    obtain ⟨pre, k, post, j1, j2, j3⟩ := j
    match pre, j1, j2 with
    | [], j1, _ => simp only [List.nil_append, ks, List.cons.injEq] at j1; rw [← j1.1] at j3; cases j3
    | [_], j1, _ => simp only [List.cons_append, List.nil_append, ks, List.cons.injEq] at j1; rw [← j1.2.1] at j3; cases j3
    | k1 :: k2 :: pre, j1, j2 =>
      simp only [List.cons_append, ks, List.cons.injEq] at j1
      exact j2 k2 (by simp) (by rw [← j1.2.1]; rfl)

end PKM
