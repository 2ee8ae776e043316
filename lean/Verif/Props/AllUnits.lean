import Verif.Props.Units
import Verif.Props.LMoments
import Verif.Props.ParticleMoments

/-!
# C113: units and origins of all quantities do not matter

Ages, velocities, positions and metallicities of particles, and the edges of the bins of the cube, are given in other units and counted from other origins.
Then the same particles are lost, and the component answers the same, in the new units.
-/

open scoped Classical

noncomputable section

namespace PKM
open Np Component

variable {g : Grid} {L : ℕ → ℕ → ℝ} {lw : Bool} {cube cube' : IFUCube} {stored stored' : Arr Num} {ρ : Cell → ℝ} {k s : Char → ℝ}

/-! ### Specification -/

/-- The grid in other units: an edge `e` of the quantity `q` becomes `s q + k q * e`. -/
def Grid.restated (g : Grid) (k s : Char → ℝ) : Grid := { g with
  t := fun i => s 't' + k 't' * g.t i
  v := fun i => s 'v' + k 'v' * g.v i
  x := fun i => s 'x' + k 'x' * g.x i
  y := fun i => s 'y' + k 'y' * g.y i
  z := fun i => s 'z' + k 'z' * g.z i }

/-- The particle in other units (float64 arithmetic: nan and infinities stay what they are). -/
def Star.restated (k s : Char → ℝ) (p : Star) : Star where
  t := .fin (s 't') + .fin (k 't') * p.t
  v := .fin (s 'v') + .fin (k 'v') * p.v
  x := .fin (s 'x') + .fin (k 'x') * p.x
  y := .fin (s 'y') + .fin (k 'y') * p.y
  z := .fin (s 'z') + .fin (k 'z') * p.z
  mass := p.mass

/-- The unit of volume of the variables `w`: `x` stands for two lengths. -/
def unitVolume (k : Char → ℝ) (w : PyStr) : ℝ := (w.map fun ch => if ch = 'x' then k 'x' * k 'y' else k ch).prod

/-- Both are nan, or the first is a number `u` and the second is `f u`. -/
def Turns (f : ℝ → ℝ) (x x' : Num) : Prop := (x = .nan ∧ x' = .nan) ∨ ∃ u : ℝ, x = .fin u ∧ x' = .fin (f u)

/-- Two components give the same answers, the second one in other units. -/
structure Restated (g : Grid) (k s : Char → ℝ) (lw : Bool) (cube : IFUCube) (stored : Arr Num) (cube' : IFUCube) (stored' : Arr Num) : Prop where
  /-- probabilities are equal, densities are per new unit of volume -/
  marg : ∀ density, ∀ w ∈ marginals, ∃ p p', getP (baseSelf cube stored) w density lw = .ok p ∧ getP (baseSelf cube' stored') w density lw = .ok p' ∧
    p.shape = g.shapeOf w ∧ p'.shape = g.shapeOf w ∧
    ∀ c, g.Has c → Turns (fun u => if density then u / unitVolume k w else u) (p.get (coords w c)) (p'.get (coords w c))
  cond : ∀ density a b, (a, b) ∈ conditionals → ∃ p p', getP (baseSelf cube stored) (condStr a b) density lw = .ok p ∧
    getP (baseSelf cube' stored') (condStr a b) density lw = .ok p' ∧ p.shape = g.shapeOf a ++ g.shapeOf b ∧ p'.shape = p.shape ∧
    ∀ c, g.Has c → Turns (fun u => if density then u / unitVolume k a else u) (p.get (coords a c ++ coords b c)) (p'.get (coords a c ++ coords b c))
  mean : ∀ q ∈ ['t','v','x','y','z'], ∀ b, ValidPair (varOf q) b → ∃ r r', getMean (baseSelf cube stored) (distStr (varOf q) b) lw = .ok r ∧
    getMean (baseSelf cube' stored') (distStr (varOf q) b) lw = .ok r' ∧ r.shape = compShape (varOf q) ++ g.shapeOf b ∧ r'.shape = r.shape ∧
    ∀ c, g.Has c → Turns (fun u => s q + k q * u) (r.get (compIdx q ++ coords b c)) (r'.get (compIdx q ++ coords b c))
  central : ∀ q ∈ ['t','v','x','y','z'], ∀ b, ValidPair (varOf q) b → ∀ j : ℕ, ∃ r r',
    getCentralMoment (baseSelf cube stored) (distStr (varOf q) b) j lw = .ok r ∧
    getCentralMoment (baseSelf cube' stored') (distStr (varOf q) b) j lw = .ok r' ∧ r.shape = compShape (varOf q) ++ g.shapeOf b ∧ r'.shape = r.shape ∧
    ∀ c, g.Has c → Turns (fun u => k q ^ j * u) (r.get (compIdx q ++ coords b c)) (r'.get (compIdx q ++ coords b c))
  /-- skewness (`j = 3`), kurtosis (`j = 4`) and so on have no unit -/
  normalised : ∀ q ∈ ['t','v','x','y','z'], ∀ b, ValidPair (varOf q) b → ∀ j : ℕ, ∃ r r',
    (obj (baseSelf cube stored)).getNormalisedCentralMoment (distStr (varOf q) b) j lw = .ok r ∧
    (obj (baseSelf cube' stored')).getNormalisedCentralMoment (distStr (varOf q) b) j lw = .ok r' ∧ r.shape = compShape (varOf q) ++ g.shapeOf b ∧
    r'.shape = r.shape ∧ ∀ c, g.Has c → r'.get (compIdx q ++ coords b c) = r.get (compIdx q ++ coords b c)
  covariance : ∀ a0 a1 b, ValidPair [a0, a1] b → ∃ r r', (obj (baseSelf cube stored)).getCovariance (distStr [a0, a1] b) lw = .ok r ∧
    (obj (baseSelf cube' stored')).getCovariance (distStr [a0, a1] b) lw = .ok r' ∧ r.shape = compShape [a0] ++ compShape [a1] ++ g.shapeOf b ∧
    r'.shape = r.shape ∧ ∀ q q', varOf q = [a0] → varOf q' = [a1] → ∀ c, g.Has c →
      Turns (fun u => k q * k q' * u) (r.get (compIdx q ++ compIdx q' ++ coords b c)) (r'.get (compIdx q ++ compIdx q' ++ coords b c))
  correlation : ∀ a0 a1 b, ValidPair [a0, a1] b → ∃ r r', (obj (baseSelf cube stored)).getCorrelation (distStr [a0, a1] b) lw = .ok r ∧
    (obj (baseSelf cube' stored')).getCorrelation (distStr [a0, a1] b) lw = .ok r' ∧ r.shape = compShape [a0] ++ compShape [a1] ++ g.shapeOf b ∧
    r'.shape = r.shape ∧ ∀ q q', varOf q = [a0] → varOf q' = [a1] → ∀ c, g.Has c →
      r'.get (compIdx q ++ compIdx q' ++ coords b c) = r.get (compIdx q ++ compIdx q' ++ coords b c)
  /-- L-moments of quantities with the same origin -/
  lmoment : ∀ q ∈ ['t','v','z'], s q = 0 → ∀ b, ValidPair [q] b → ∀ j : ℕ, 1 ≤ j → ∃ r r',
    (obj (baseSelf cube stored)).getLMoment (distStr [q] b) j lw = .ok r ∧ (obj (baseSelf cube' stored')).getLMoment (distStr [q] b) j lw = .ok r' ∧
    r'.shape = r.shape ∧ ∀ c, g.Has c → Turns (fun u => k q * u) (r.get (coords b c)) (r'.get (coords b c))

/-! ### Lemmas -/

theorem restated_proper (hg : g.Proper) (hk : ∀ q, 0 < k q) : (g.restated k s).Proper where
  nt := hg.nt
  nv := hg.nv
  nx := hg.nx
  ny := hg.ny
  nz := hg.nz
  t i hi := by have := mul_lt_mul_of_pos_left (hg.t i hi) (hk 't'); show _ + _ < _ + _; linarith
  v i hi := by have := mul_lt_mul_of_pos_left (hg.v i hi) (hk 'v'); show _ + _ < _ + _; linarith
  x i hi := by have := mul_lt_mul_of_pos_left (hg.x i hi) (hk 'x'); show _ + _ < _ + _; linarith
  y i hi := by have := mul_lt_mul_of_pos_left (hg.y i hi) (hk 'y'); show _ + _ < _ + _; linarith
  z i hi := by have := mul_lt_mul_of_pos_left (hg.z i hi) (hk 'z'); show _ + _ < _ + _; linarith

theorem restated_value {q : Char} (hq : q ∈ ['t','v','x','y','z']) (c : Cell) : (g.restated k s).value q c = s q + k q * g.value q c := by
  fin_cases hq <;> simp [Grid.value, Grid.restated, similar_centre]

theorem restated_volOf {w : PyStr} (hw : ∀ ch ∈ w, ch ∈ ['t','v','x','z']) (c : Cell) : (g.restated k s).volOf w c = unitVolume k w * g.volOf w c := by
  induction w with
  | nil => simp [Grid.volOf, unitVolume]
  | cons ch w ih =>
    have e : ∀ g : Grid, g.volOf (ch :: w) c = g.width1 c ch * g.volOf w c := fun g => by simp [Grid.volOf]
    have e' : unitVolume k (ch :: w) = (if ch = 'x' then k 'x' * k 'y' else k ch) * unitVolume k w := by simp [unitVolume]
    have h1 : (g.restated k s).width1 c ch = (if ch = 'x' then k 'x' * k 'y' else k ch) * g.width1 c ch := by
      have := hw ch List.mem_cons_self
      fin_cases this <;> simp [Grid.width1, Grid.restated, similar_width]
      ring
    rw [e, e, e', h1, ih fun ch h => hw ch (List.mem_cons_of_mem _ h)]
    ring

theorem restated_mass (hk : ∀ q, 0 < k q) : massP (g.restated k s) (fun c => ρ c / unitVolume k ['t','v','x','z']) = massP g ρ := by
  have hu : unitVolume k ['t','v','x','z'] ≠ 0 := by
    have := hk 't'; have := hk 'v'; have := hk 'x'; have := hk 'y'; have := hk 'z'
    simp [unitVolume]; refine ⟨?_, ?_, ⟨?_, ?_⟩, ?_⟩ <;> positivity
  funext c
  unfold massP
  rw [← volOf_tvxz, ← volOf_tvxz, restated_volOf (by decide)]
  field_simp

theorem restated_wtd {P : Cell → ℝ} : wtdP (g.restated k s) L P lw = wtdP g L P lw := rfl
theorem restated_ex {P : Cell → ℝ} {b : PyStr} {c : Cell} {φ : Cell → ℝ} : Ex (g.restated k s) P b c φ = Ex g P b c φ := rfl
theorem restated_condWt {P : Cell → ℝ} {b : PyStr} {c : Cell} : (g.restated k s).condWt P b c = g.condWt P b c := rfl

theorem pos_affine {Ω : Type} {E : (Ω → ℝ) → ℝ} (hE : Pos E) (a b : ℝ) (φ : Ω → ℝ) : E (fun d => a + b * φ d) = a + b * E φ := by
  have e := hE.add (fun _ => a) (fun d => b * φ d)
  have e1 := hE.smul a (fun _ => 1)
  rw [hE.smul] at e
  simp only [mul_one] at e1
  rw [e, e1, hE.one, mul_one]

theorem marginal_letters : ∀ w ∈ marginals, ∀ ch ∈ w, ch ∈ ['t','v','x','z'] := by decide +kernel
theorem conditional_letters : ∀ p ∈ conditionals, ∀ ch ∈ p.1, ch ∈ ['t','v','x','z'] := by decide +kernel

theorem restated_dvol (density : Bool) {w : PyStr} (hw : ∀ ch ∈ w, ch ∈ ['t','v','x','z']) (u : ℝ) (c : Cell) :
    u / dvol (g.restated k s) density w c = if density then u / dvol g density w c / unitVolume k w else u / dvol g density w c := by
  cases density
  · simp [dvol]
  · simp only [dvol, if_true, restated_volOf hw]
    rw [div_div, mul_comm (g.volOf w c)]

theorem varOf_letter {q a : Char} {b : PyStr} (hq : varOf q = [a]) (h : ValidPair [a] b) : q ∈ ['t','v','x','y','z'] := by
  have hm : [a] ∈ marginals := by
    rcases h with ⟨-, h⟩ | h
    · exact h
    · exact (conditionals_letters _ h).2.2.2.2.2.2.2.1
  have ha : a ∈ ['t','v','x','z'] := marginal_letters _ hm a (by simp)
  unfold varOf at hq
  split_ifs at hq with e
  · simp [e]
  · obtain rfl : q = a := by simpa using hq
    revert ha; simp; tauto

section
variable (h : BaseIs cube stored g ρ L) (h' : BaseIs cube' stored' (g.restated k s) (fun c => ρ c / unitVolume k ['t','v','x','z']) L)
  (hk : ∀ q, 0 < k q) (hlw : lw = true → 0 < totalLight g L (massP g ρ)) (hN : g.sumCells (massP g ρ) = 1)
include h h' hk hlw hN

theorem restated_all : Restated g k s lw cube stored cube' stored' := by
  have hM := restated_mass (g := g) (s := s) (ρ := ρ) hk
  have hlw' : lw = true → 0 < totalLight (g.restated k s) L (massP (g.restated k s) (fun c => ρ c / unitVolume k ['t','v','x','z'])) := by
    rw [hM]; exact hlw
  have hE : ∀ {b c}, g.condWt (wtdP g L (massP g ρ) lw) b c ≠ 0 → Pos (Ex g (wtdP g L (massP g ρ) lw) b c) := fun h0 =>
    pos_Ex (fun d hd => h.wtd_nonneg lw hd) h0 (fun _ => total_one hlw (fun _ => hN))
  have S := h.std hlw
  have S' := h'.std hlw'
  rw [hM] at S'
  simp only [restated_wtd] at S'
  have hex : ∀ {b c q}, q ∈ ['t','v','x','y','z'] → g.condWt (wtdP g L (massP g ρ) lw) b c ≠ 0 →
      Ex g (wtdP g L (massP g ρ) lw) b c ((g.restated k s).value q) = s q + k q * Ex g (wtdP g L (massP g ρ) lw) b c (g.value q) := fun hq h0 => by
    rw [← pos_affine (hE h0)]
    exact congrArg _ (funext fun d => restated_value hq d)
  have hcen : ∀ {b c q}, q ∈ ['t','v','x','y','z'] → g.condWt (wtdP g L (massP g ρ) lw) b c ≠ 0 → ∀ j : ℕ,
      Ex g (wtdP g L (massP g ρ) lw) b c (fun d => ((g.restated k s).value q d - Ex g (wtdP g L (massP g ρ) lw) b c ((g.restated k s).value q)) ^ j) =
        k q ^ j * Ex g (wtdP g L (massP g ρ) lw) b c (fun d => (g.value q d - Ex g (wtdP g L (massP g ρ) lw) b c (g.value q)) ^ j) := fun hq h0 j => by
    rw [← (hE h0).smul, hex hq h0]
    refine congrArg _ (funext fun d => ?_)
    rw [restated_value hq, ← mul_pow]
    ring
  have hcov : ∀ {b c q q'}, q ∈ ['t','v','x','y','z'] → q' ∈ ['t','v','x','y','z'] → g.condWt (wtdP g L (massP g ρ) lw) b c ≠ 0 →
      Ex g (wtdP g L (massP g ρ) lw) b c (fun d => ((g.restated k s).value q d - Ex g (wtdP g L (massP g ρ) lw) b c ((g.restated k s).value q)) *
        ((g.restated k s).value q' d - Ex g (wtdP g L (massP g ρ) lw) b c ((g.restated k s).value q'))) =
        k q * k q' * Ex g (wtdP g L (massP g ρ) lw) b c (fun d => (g.value q d - Ex g (wtdP g L (massP g ρ) lw) b c (g.value q)) *
          (g.value q' d - Ex g (wtdP g L (massP g ρ) lw) b c (g.value q'))) := fun hq hq' h0 => by
    rw [← (hE h0).smul, hex hq h0, hex hq' h0]
    refine congrArg _ (funext fun d => ?_)
    rw [restated_value hq, restated_value hq']
    ring
  have hvar : ∀ {b c q}, g.condWt (wtdP g L (massP g ρ) lw) b c ≠ 0 →
      0 ≤ Ex g (wtdP g L (massP g ρ) lw) b c (fun d => (g.value q d - Ex g (wtdP g L (massP g ρ) lw) b c (g.value q)) ^ 2) := fun h0 =>
    (hE h0).nonneg _ fun d => sq_nonneg _
  refine ⟨fun density w hw => ?_, fun density a b hab => ?_, fun q hq b hb => ?_, fun q hq b hb j => ?_, fun q hq b hb j => ?_, fun a0 a1 b hab => ?_,
    fun a0 a1 b hab => ?_, fun q hq hs b hb j hj => ?_⟩
  · obtain ⟨p, p1, p2, p3⟩ := getP_marg_of_contract (h.contract lw hlw) density w hw
    obtain ⟨p', p1', p2', p3'⟩ := getP_marg_of_contract (h'.contract lw hlw') density w hw
    refine ⟨p, p', p1, p1', p2, p2', fun c hc => .inr ⟨_, p3 c hc, ?_⟩⟩
    rw [p3' c hc, hM]
    exact congrArg _ (restated_dvol density (marginal_letters w hw) _ c)
  · obtain ⟨p, p1, p2, p3⟩ := getP_cond_of_contract (h.contract lw hlw) density (a, b) hab (baseLogP_none _ _ (condStr_not_marginal a b))
    obtain ⟨p', p1', p2', p3'⟩ := getP_cond_of_contract (h'.contract lw hlw') density (a, b) hab (baseLogP_none _ _ (condStr_not_marginal a b))
    refine ⟨p, p', p1, p1', by rw [p2, shapeOf_condStr], p2'.trans p2.symm, fun c hc => ?_⟩
    have e := p3 c hc
    have e' := p3' c hc
    rw [coords_condStr] at e e'
    rw [hM] at e'
    rw [e, e']
    dsimp only [condTable]
    by_cases h0 : g.marg (wtdP g L (massP g ρ) lw) b c = 0
    · exact .inl ⟨if_pos h0, if_pos h0⟩
    · refine .inr ⟨_, if_neg h0, (if_neg h0).trans ?_⟩
      exact congrArg _ (restated_dvol density (conditional_letters _ hab) _ c)
  · obtain ⟨r, r1, r2, r3⟩ := C13_means h hlw q hq b hb
    obtain ⟨r', r1', r2', r3'⟩ := C13_means h' hlw' q hq b hb
    refine ⟨r, r', r1, r1', r2, r2'.trans r2.symm, fun c hc => ?_⟩
    rw [r3 c hc, r3' c hc, hM]
    by_cases h0 : g.condWt (wtdP g L (massP g ρ) lw) b c = 0
    · exact .inl ⟨if_pos h0, if_pos h0⟩
    · exact .inr ⟨_, if_neg h0, (if_neg h0).trans (congrArg _ (hex hq h0))⟩
  · obtain ⟨h1, h2, h3⟩ := quantity_facts hq
    obtain ⟨r, r1, r2⟩ := (S b).centralEx hb h1 j
    obtain ⟨r', r1', r2'⟩ := (S' b).centralEx hb h1 j
    refine ⟨r, r', r1, r1', r2.1, r2'.1.trans r2.1.symm, fun c hc => ?_⟩
    rw [r2.2 q h2 c hc, r2'.2 q h2 c hc]
    by_cases h0 : g.condWt (wtdP g L (massP g ρ) lw) b c = 0
    · exact .inl ⟨if_pos h0, if_pos h0⟩
    · exact .inr ⟨_, if_neg h0, (if_neg h0).trans (congrArg _ (hcen hq h0 j))⟩
  · obtain ⟨h1, h2, h3⟩ := quantity_facts hq
    obtain ⟨M, m1, m2⟩ := (S b).centralEx hb h1 j
    obtain ⟨M', m1', m2'⟩ := (S' b).centralEx hb h1 j
    obtain ⟨V, v1, v2⟩ := (S b).centralEx hb h1 2
    obtain ⟨V', v1', v2'⟩ := (S' b).centralEx hb h1 2
    obtain ⟨r, r1, r2⟩ := getNormalised_table h3 m1 m2 v1 v2
    obtain ⟨r', r1', r2'⟩ := getNormalised_table h3 m1' m2' v1' v2'
    refine ⟨r, r', r1, r1', r2.1, r2'.1.trans r2.1.symm, fun c hc => ?_⟩
    rw [r2.2 q h2 c hc, r2'.2 q h2 c hc]
    by_cases h0 : g.condWt (wtdP g L (massP g ρ) lw) b c = 0
    · have h0' : (g.restated k s).condWt (wtdP g L (massP g ρ) lw) b c = 0 := h0
      simp only [if_pos h0, if_pos h0']
    · have h0' : ¬ (g.restated k s).condWt (wtdP g L (massP g ρ) lw) b c = 0 := h0
      simp only [if_neg h0, if_neg h0', restated_ex]
      rw [hcen hq h0 j, hcen hq h0 2, Num.sqrt_fin (hvar h0), Num.sqrt_fin (mul_nonneg (sq_nonneg _) (hvar h0)), Real.sqrt_mul (sq_nonneg _),
        Real.sqrt_sq (hk q).le, Num.npow_fin, Num.npow_fin, mul_pow]
      exact div_units (pow_pos (hk q) j) _ _
  · obtain ⟨r, r1, r2⟩ := (S b).covarianceEx hab
    obtain ⟨r', r1', r2'⟩ := (S' b).covarianceEx hab
    obtain ⟨hv0, hv1⟩ := validPair_sub hab
    refine ⟨r, r', r1, r1', r2.1, r2'.1.trans r2.1.symm, fun q q' hq hq' c hc => ?_⟩
    rw [r2.2 q (varOf_mem hq) q' (varOf_mem hq') c hc, r2'.2 q (varOf_mem hq) q' (varOf_mem hq') c hc]
    by_cases h0 : g.condWt (wtdP g L (massP g ρ) lw) b c = 0
    · exact .inl ⟨if_pos h0, if_pos h0⟩
    · exact .inr ⟨_, if_neg h0, (if_neg h0).trans (congrArg _ (hcov (varOf_letter hq hv0) (varOf_letter hq' hv1) h0))⟩
  · obtain ⟨hv0, hv1⟩ := validPair_sub hab
    obtain ⟨C, c1, c2⟩ := (S b).covarianceEx hab
    obtain ⟨C', c1', c2'⟩ := (S' b).covarianceEx hab
    obtain ⟨V, v1, v2⟩ := (S b).centralEx hv0 rfl 2
    obtain ⟨V', v1', v2'⟩ := (S' b).centralEx hv0 rfl 2
    obtain ⟨W, w1, w2⟩ := (S b).centralEx hv1 rfl 2
    obtain ⟨W', w1', w2'⟩ := (S' b).centralEx hv1 rfl 2
    obtain ⟨r, r1, r2⟩ := corCore_table hab c1 c2 v1 v2 w1 w2
    obtain ⟨r', r1', r2'⟩ := corCore_table hab c1' c2' v1' v2' w1' w2'
    refine ⟨r, r', r1, r1', r2.1, r2'.1.trans r2.1.symm, fun q q' hq hq' c hc => ?_⟩
    rw [r2.2 q (varOf_mem hq) q' (varOf_mem hq') c hc, r2'.2 q (varOf_mem hq) q' (varOf_mem hq') c hc]
    by_cases h0 : g.condWt (wtdP g L (massP g ρ) lw) b c = 0
    · have h0' : (g.restated k s).condWt (wtdP g L (massP g ρ) lw) b c = 0 := h0
      simp only [if_pos h0, if_pos h0']
    · have h0' : ¬ (g.restated k s).condWt (wtdP g L (massP g ρ) lw) b c = 0 := h0
      simp only [if_neg h0, if_neg h0', restated_ex]
      have e := varOf_letter hq hv0
      have e' := varOf_letter hq' hv1
      have n1 := hvar h0 (q := q)
      have n2 := hvar h0 (q := q')
      rw [hcov e e' h0, hcen e h0 2, hcen e' h0 2, Num.fin_mul, Num.fin_mul, Num.sqrt_fin (mul_nonneg n1 n2),
        show ∀ x y : ℝ, k q ^ 2 * x * (k q' ^ 2 * y) = (k q * k q') ^ 2 * (x * y) from fun x y => by ring,
        Num.sqrt_fin (mul_nonneg (sq_nonneg _) (mul_nonneg n1 n2)), Real.sqrt_mul (sq_nonneg _), Real.sqrt_sq (mul_pos (hk q) (hk q')).le]
      exact div_units (mul_pos (hk q) (hk q')) _ _
  · have hR : Regridded g (g.restated k s) (wtdP g L (massP g ρ) lw)
        (wtdP (g.restated k s) L (massP (g.restated k s) (fun c => ρ c / unitVolume k ['t','v','x','z'])) lw) q (k q) 0 := by
      rw [hM]
      refine ⟨rfl, rfl, rfl, rfl, rfl, fun i _ => ?_, fun c _ => rfl⟩
      rw [add_zero]
      fin_cases hq <;> simp_all [Grid.edge, Grid.restated]
    obtain ⟨r, r', r1, r2, r3, r4⟩ := C21_affine h hlw h' hlw' q hq b hb (k q) 0 hR j hj
    refine ⟨r, r', r1, r2, r3, fun c hc => ?_⟩
    rcases r4 c hc with ⟨e, e', -⟩ | ⟨x, e, e', -⟩
    · exact .inl ⟨e, e'⟩
    · exact .inr ⟨x, e, by rw [e', zero_mul, add_zero]⟩

end

/-! ### Lemmas: particles -/

variable {n : ℕ}

/-- Numbers in the new unit. -/
theorem restated_fin {a b : ℝ} (hb : 0 < b) (x : Num) (r : ℝ) : (.fin a + .fin b * x = .fin (a + b * r) : Prop) ↔ x = .fin r := by
  cases x with
  | fin u =>
    rw [Num.fin_mul, Num.fin_add]
    constructor
    · intro h
      injection h with h
      rw [mul_left_cancel₀ hb.ne' (add_left_cancel h)]
    · intro h
      injection h with h
      rw [h]
  | pinf => simp [show (Num.fin b * Num.pinf : Num) = Num.infSign b from rfl, Num.infSign, hb, show (Num.fin a + Num.pinf : Num) = Num.pinf from rfl]
  | ninf => simp [show (Num.fin b * Num.ninf : Num) = Num.infSign (-b) from rfl, Num.infSign, not_lt.2 hb.le, hb, show (Num.fin a + Num.ninf : Num) = Num.ninf from rfl]
  | nan => simp [show (Num.fin b * Num.nan : Num) = Num.nan from rfl]

theorem restated_lt {a b : ℝ} (hb : 0 < b) (x : Num) (r : ℝ) : (Num.lt (.fin a + .fin b * x) (.fin (a + b * r)) ↔ Num.lt x (.fin r)) ∧
    (Num.lt (.fin (a + b * r)) (.fin a + .fin b * x) ↔ Num.lt (.fin r) x) := by
  cases x with
  | fin u =>
    rw [Num.fin_mul, Num.fin_add]
    constructor <;> (show _ + _ < _ + _ ↔ _ < _; rw [add_lt_add_iff_left, mul_lt_mul_iff_right₀ hb])
  | pinf =>
    have e : (Num.fin a + Num.fin b * Num.pinf : Num) = Num.pinf := by
      rw [show (Num.fin b * Num.pinf : Num) = Num.infSign b from rfl, Num.infSign, if_pos hb]; rfl
    rw [e]; exact ⟨Iff.rfl, Iff.rfl⟩
  | ninf =>
    have e : (Num.fin a + Num.fin b * Num.ninf : Num) = Num.ninf := by
      rw [show (Num.fin b * Num.ninf : Num) = Num.infSign (-b) from rfl, Num.infSign, if_neg (by linarith), if_pos (by linarith)]; rfl
    rw [e]; exact ⟨Iff.rfl, Iff.rfl⟩
  | nan =>
    have e : (Num.fin a + Num.fin b * Num.nan : Num) = Num.nan := rfl
    rw [e]; exact ⟨Iff.rfl, Iff.rfl⟩

theorem restated_num {a b : ℝ} (hb : 0 < b) (x : Num) (P : ℝ → Prop) :
    (∃ r, (.fin a + .fin b * x : Num) = .fin r ∧ P r) ↔ ∃ r, x = .fin r ∧ P (a + b * r) := by
  constructor
  · rintro ⟨r, e, h⟩
    have er : r = a + b * ((r - a) / b) := by field_simp; ring
    rw [er] at e
    exact ⟨_, (restated_fin hb x _).1 e, by rw [← er]; exact h⟩
  · rintro ⟨r, e, h⟩
    exact ⟨_, (restated_fin hb x r).2 e, h⟩

theorem restated_inBin {a b : ℝ} (hb : 0 < b) (e : ℕ → ℝ) (i : ℕ) (x : Num) :
    InBin (fun i => a + b * e i) n i (.fin a + .fin b * x) ↔ InBin e n i x := by
  unfold InBin
  rw [restated_num hb x (fun r => a + b * e i ≤ r ∧ (r < a + b * e (i + 1) ∨ (i + 1 = n ∧ r = a + b * e n)))]
  refine exists_congr fun r => and_congr Iff.rfl (and_congr ?_ (or_congr ?_ (and_congr Iff.rfl ?_)))
  · rw [add_le_add_iff_left, mul_le_mul_iff_right₀ hb]
  · rw [add_lt_add_iff_left, mul_lt_mul_iff_right₀ hb]
  · rw [add_right_inj, mul_right_inj' hb.ne']

theorem restated_inRange {a b : ℝ} (hb : 0 < b) (e : ℕ → ℝ) (x : Num) : InRange (fun i => a + b * e i) n (.fin a + .fin b * x) ↔ InRange e n x := by
  unfold InRange
  rw [restated_num hb x (fun r => a + b * e 0 ≤ r ∧ r ≤ a + b * e n)]
  refine exists_congr fun r => and_congr Iff.rfl (and_congr ?_ ?_) <;> rw [add_le_add_iff_left, mul_le_mul_iff_right₀ hb]

section
variable (hk : ∀ q, 0 < k q) (S : List Star)
include hk

theorem restated_star (p : Star) : ((g.restated k s).inRange (p.restated k s) ↔ g.inRange p) ∧
    ∀ c, (g.restated k s).inCell c (p.restated k s) ↔ g.inCell c p :=
  ⟨and_congr (restated_inRange (hk _) _ _) (and_congr (restated_inRange (hk _) _ _) (and_congr (restated_inRange (hk _) _ _)
    (and_congr (restated_inRange (hk _) _ _) (restated_inRange (hk _) _ _)))),
  fun _ => and_congr (restated_inBin (hk _) _ _ _) (and_congr (restated_inBin (hk _) _ _ _) (and_congr (restated_inBin (hk _) _ _ _)
    (and_congr (restated_inBin (hk _) _ _ _) (restated_inBin (hk _) _ _ _))))⟩

theorem restated_covered : (g.restated k s).massCovered (S.map (Star.restated k s)) = g.massCovered S := by
  unfold Grid.massCovered
  rw [List.map_map]
  exact congrArg _ (List.map_congr_left fun p _ => if_congr (restated_star hk p).1 rfl rfl)

theorem restated_density (hu : unitVolume k ['t','v','x','z'] ≠ 0) :
    (g.restated k s).starDensity (S.map (Star.restated k s)) = fun c => g.starDensity S c / unitVolume k ['t','v','x','z'] := by
  funext c
  unfold Grid.starDensity
  rw [restated_covered hk, ← volOf_tvxz, ← volOf_tvxz, restated_volOf (by decide)]
  have e : (g.restated k s).massIn (S.map (Star.restated k s)) c = g.massIn S c := by
    unfold Grid.massIn
    rw [List.map_map]
    exact congrArg _ (List.map_congr_left fun p _ => if_congr ((restated_star hk p).2 c) rfl rfl)
  rw [e]
  by_cases hc : g.Has c
  · have hc' : (g.restated k s).Has c := hc
    rw [if_pos hc, if_pos hc']
    simp only [div_eq_mul_inv, mul_inv]
    ring
  · have hc' : ¬ (g.restated k s).Has c := hc
    rw [if_neg hc, if_neg hc', zero_div]

theorem restated_report : (g.restated k s).report (S.map (Star.restated k s)) = g.report S := by
  have cnt : ∀ (P Q : Star → Prop) [DecidablePred P] [DecidablePred Q], (∀ p, P (p.restated k s) ↔ Q p) → (S.map (Star.restated k s)).countP (fun p => decide (P p)) = S.countP (fun p => decide (Q p)) := by
    intro P Q _ _ h
    rw [List.countP_map]
    exact List.countP_congr fun p _ => by simp [h p]
  unfold Grid.report
  rw [List.length_map]
  congr 1
  · exact cnt (fun p => ¬ (g.restated k s).inRange p) (fun p => ¬ g.inRange p) fun p => not_congr (restated_star hk p).1
  · simp only [List.map_cons, List.map_nil]
    rw [cnt _ (fun p => Num.lt p.t (.fin (g.t 0))) fun p => (restated_lt (hk 't') p.t _).1, cnt _ (fun p => Num.lt (.fin (g.t g.nt)) p.t) fun p => (restated_lt (hk 't') p.t _).2,
      cnt _ (fun p => Num.lt p.v (.fin (g.v 0))) fun p => (restated_lt (hk 'v') p.v _).1, cnt _ (fun p => Num.lt (.fin (g.v g.nv)) p.v) fun p => (restated_lt (hk 'v') p.v _).2,
      cnt _ (fun p => Num.lt p.x (.fin (g.x 0))) fun p => (restated_lt (hk 'x') p.x _).1, cnt _ (fun p => Num.lt (.fin (g.x g.nx)) p.x) fun p => (restated_lt (hk 'x') p.x _).2,
      cnt _ (fun p => Num.lt p.y (.fin (g.y 0))) fun p => (restated_lt (hk 'y') p.y _).1, cnt _ (fun p => Num.lt (.fin (g.y g.ny)) p.y) fun p => (restated_lt (hk 'y') p.y _).2,
      cnt _ (fun p => Num.lt p.z (.fin (g.z 0))) fun p => (restated_lt (hk 'z') p.z _).1, cnt _ (fun p => Num.lt (.fin (g.z g.nz)) p.z) fun p => (restated_lt (hk 'z') p.z _).2]

end

theorem unitVolume_pos (hk : ∀ q, 0 < k q) (w : PyStr) : 0 < unitVolume k w := by
  unfold unitVolume
  refine List.prod_pos fun x hx => ?_
  obtain ⟨ch, -, rfl⟩ := List.mem_map.1 hx
  have := hk 'x'; have := hk 'y'; have := hk ch
  split_ifs <;> positivity

/-! ### C113 -/

/-- **C113, tables.** Two components with a table of densities, on cubes whose bins are the same in different units, and with densities per unit of volume
to match: all answers are the same in these units. -/
theorem C113_tables (h : BaseIs cube stored g ρ L) (hc' : CubeIs cube' (g.restated k s)) (hk : ∀ q, 0 < k q)
    (hl' : IsArr g ['t','z'] cube'.ssps.lightWeights (fun c => .fin (L c.t c.z)))
    (hs' : IsArr g ['t','v','x','z'] stored' (fun c => Num.lg (ρ c / unitVolume k ['t','v','x','z'])))
    (hlw : lw = true → 0 < totalLight g L (massP g ρ)) (hN : g.sumCells (massP g ρ) = 1) : Restated g k s lw cube stored cube' stored' :=
  restated_all h ⟨restated_proper h.proper hk, hc', hs', fun c => div_nonneg (h.nonneg c) (unitVolume_pos hk _).le, hl', h.lightNonneg⟩ hk hlw hN

/-- **C113, particles.** Particles given in other units to a cube in these units: as many are lost, in total and at each end of every range, and all answers
are the same in these units. -/
theorem C113_particles {S : List Star} {cell : Star → Cell} (hc : CubeIs cube g) (hc' : CubeIs cube' (g.restated k s)) (hg : g.Proper) (hk : ∀ q, 0 < k q)
    (hlight : IsArr g ['t','z'] cube.ssps.lightWeights (fun c => .fin (L c.t c.z)))
    (hlight' : IsArr g ['t','z'] cube'.ssps.lightWeights (fun c => .fin (L c.t c.z))) (hL : ∀ t z, 0 ≤ L t z) (hl : g.Locates cell)
    (hm : ∀ p ∈ S, 0 ≤ p.mass) (h0 : 0 < g.massCovered S) (h1 : lw = true → 0 < starTotal S g.inRange (starWeight L true cell)) :
    ∃ stored stored' rep, fromStars cube S = .ok (stored, rep) ∧ fromStars cube' (S.map (Star.restated k s)) = .ok (stored', rep) ∧
      Restated g k s lw cube stored cube' stored' := by
  obtain ⟨st, e1, h⟩ := C39_component hc hg hlight hL S hm h0
  obtain ⟨st', e1', h'⟩ := C39_component hc' (restated_proper hg hk) (L := L) hlight' hL (S.map (Star.restated k s)) (by
    intro p hp
    obtain ⟨p0, hp0, rfl⟩ := List.mem_map.1 hp
    exact hm p0 hp0) (by rw [restated_covered hk]; exact h0)
  rw [restated_report hk] at e1'
  rw [restated_density hk S (unitVolume_pos hk _).ne'] at h'
  have hlw : lw = true → 0 < totalLight g L (massP g (g.starDensity S)) := fun e => by
    rw [starLight hg hl]; exact div_pos (h1 e) h0
  have hN : g.sumCells (massP g (g.starDensity S)) = 1 := by
    have e := wtd_stars_one (lw := false) (L := L) hg hl h0 (by simp) [] ⟨0, 0, 0, 0, 0⟩
    have e' : g.Selected cell [] ⟨0, 0, 0, 0, 0⟩ = g.inRange := by funext s; simp [Grid.Selected, coords]
    have h2 : starTotal S g.inRange (starWeight L false cell) ≠ 0 := by
      have : starTotal S g.inRange (starWeight L false cell) = g.massCovered S := by
        unfold starTotal starSum starWeight Grid.massCovered
        simp
      rw [this]; exact h0.ne'
    rw [marg_nil, e', div_self h2] at e
    simpa [wtdP] using e
  exact ⟨st, st', _, e1, e1', restated_all h h' hk hlw hN⟩

/-- **C113, cubes.** Cubes in other units, as made by the constructor, from SSP models with ages and metallicities in these units. -/
theorem C113_cubes {ssps ssps' : SSPs} {nt nz : ℕ} {t z : ℕ → ℝ} (hs : SspsAre ssps nt nz t z)
    (hs' : SspsAre ssps' nt nz (fun i => s 't' + k 't' * t i) (fun i => s 'z' + k 'z' * z i)) (nx ny nv : ℕ) (hx : 0 < nx) (hy : 0 < ny) (hv : 0 < nv)
    (x1rng x2rng vrng : ℝ × ℝ) : ∃ cube cube', IFUCube.init ssps nx ny nv x1rng x2rng vrng = .ok cube ∧
      IFUCube.init ssps' nx ny nv (s 'x' + k 'x' * x1rng.1, s 'x' + k 'x' * x1rng.2) (s 'y' + k 'y' * x2rng.1, s 'y' + k 'y' * x2rng.2)
        (s 'v' + k 'v' * vrng.1, s 'v' + k 'v' * vrng.2) = .ok cube' ∧ cube.ssps = ssps ∧ cube'.ssps = ssps' ∧
      CubeIs cube (cubeGrid nt nz t z nx ny nv x1rng x2rng vrng) ∧ CubeIs cube' ((cubeGrid nt nz t z nx ny nv x1rng x2rng vrng).restated k s) := by
  obtain ⟨c, h1, h2, h3, -⟩ := C03_constructor hs nx ny nv hx hy hv x1rng x2rng vrng
  obtain ⟨c', h1', h2', h3', -⟩ := C03_constructor hs' nx ny nv hx hy hv (s 'x' + k 'x' * x1rng.1, s 'x' + k 'x' * x1rng.2)
    (s 'y' + k 'y' * x2rng.1, s 'y' + k 'y' * x2rng.2) (s 'v' + k 'v' * vrng.1, s 'v' + k 'v' * vrng.2)
  refine ⟨c, c', h1, h1', h3, h3', h2, ?_⟩
  have e : ∀ (a b : ℝ) (r : ℝ × ℝ) (m : ℕ), evenEdges (a + b * r.1, a + b * r.2) m = fun i => a + b * evenEdges r m i := by
    intro a b r m
    funext i
    unfold evenEdges
    ring
  have : (cubeGrid nt nz t z nx ny nv x1rng x2rng vrng).restated k s = cubeGrid nt nz (fun i => s 't' + k 't' * t i) (fun i => s 'z' + k 'z' * z i) nx ny nv
      (s 'x' + k 'x' * x1rng.1, s 'x' + k 'x' * x1rng.2) (s 'y' + k 'y' * x2rng.1, s 'y' + k 'y' * x2rng.2) (s 'v' + k 'v' * vrng.1, s 'v' + k 'v' * vrng.2) := by
    unfold cubeGrid Grid.restated
    simp only [e]
  rw [this]
  exact h2'

/-- Ages in Myr and velocities in m/s. -/
def demoUnits (q : Char) : ℝ := if q = 't' ∨ q = 'v' then 1000 else 1

/-- The three particles of the example, one of them without a velocity, with ages in Myr and velocities in m/s. -/
example : ∃ cube cube' stored stored' rep, CubeIs cube demoGrid ∧ CubeIs cube' (demoGrid.restated demoUnits (fun _ => 0)) ∧
    fromStars cube demoStars = .ok (stored, rep) ∧ fromStars cube' (demoStars.map (Star.restated demoUnits (fun _ => 0))) = .ok (stored', rep) ∧
    Restated demoGrid demoUnits (fun _ => 0) true cube stored cube' stored' := by
  let ssps' : SSPs := {
    zEdges := vec 4 (fun i => .fin (0 + 1 * (i : ℝ) ^ 2))
    tEdges := vec 3 (fun i => .fin (0 + 1000 * (i : ℝ) ^ 2))
    zCents := vec 3 (fun i => .fin (centre (fun i => 0 + 1 * (i : ℝ) ^ 2) i))
    tCents := vec 2 (fun i => .fin (centre (fun i => 0 + 1000 * (i : ℝ) ^ 2) i))
    deltaT := vec 2 (fun i => .fin (width (fun i => 0 + 1000 * (i : ℝ) ^ 2) i))
    deltaZ := vec 3 (fun i => .fin (width (fun i => 0 + 1 * (i : ℝ) ^ 2) i))
    lightWeights := demoSSPs.lightWeights }
  have hs' : SspsAre ssps' 2 3 (fun i => 0 + 1000 * (i : ℝ) ^ 2) (fun i => 0 + 1 * (i : ℝ) ^ 2) :=
    ⟨⟨rfl, fun _ _ => rfl⟩, ⟨rfl, fun _ _ => rfl⟩, ⟨rfl, fun _ _ => rfl⟩, ⟨rfl, fun _ _ => rfl⟩, ⟨rfl, fun _ _ => rfl⟩, ⟨rfl, fun _ _ => rfl⟩⟩
  have ut : demoUnits 't' = 1000 := by simp [demoUnits]
  have uz : demoUnits 'z' = 1 := by simp [demoUnits]
  obtain ⟨cube, cube', -, -, e, e', hc, hc'⟩ := C113_cubes (k := demoUnits) (s := fun _ => 0) demoSSPs_are (by rw [ut, uz]; exact hs') 5 6 4
    (by norm_num) (by norm_num) (by norm_num) (-1, 1) (0, 3) (-100, 300)
  obtain ⟨cell, hl⟩ := locates_exists demoGrid_proper
  have hL := demo_light e
  obtain ⟨st, st', rep, h1, h2, h3⟩ := C113_particles (lw := true) (g := demoGrid) (L := demoL) (S := demoStars) (cell := cell) hc hc' demoGrid_proper
    (fun q => by unfold demoUnits; split_ifs <;> norm_num) hL (by rw [e']; rw [e] at hL; exact hL) (fun t z => (demoL_pos t z).le) hl
    (by simp [demoStars]) (by rw [demoStars_covered]; norm_num) (fun _ => demoStars_light cell)
  exact ⟨cube, cube', st, st', rep, hc, hc', h1, h2, h3⟩

end PKM
