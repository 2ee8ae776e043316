import Verif.LMoment
import Verif.Props.Moments
import Mathlib.Algebra.BigOperators.Intervals

/-!
# L-moments: properties C20, C21, C22
-/

open scoped Classical

noncomputable section

namespace PKM
open Np Component

variable {cube : IFUCube} {stored : Arr Num} {g : Grid} {ρ : Cell → ℝ} {L : ℕ → ℕ → ℝ} {lw : Bool}

/-! ### Helpers -/

theorem marg_sum {ι : Type} (s : Finset ι) (f : ι → Cell → ℝ) (b : PyStr) (c : Cell) :
    ∑ k ∈ s, g.marg (f k) b c = g.marg (fun d => ∑ k ∈ s, f k d) b c := by
  induction s using Finset.induction_on with
  | empty =>
    simp only [Finset.sum_empty]
    have := marg_smul (g := g) (b := b) (c := c) 0 (fun _ => 0)
    simpa using this.symm
  | insert a s h ih => simp only [Finset.sum_insert h, ih, marg_add]

theorem binIdx_lt {q : Char} {d : Cell} (hd : g.Has d) : binIdx q d < g.bins q := by
  obtain ⟨h1, h2, h3, h4, h5⟩ := hd
  unfold binIdx Grid.bins
  split_ifs <;> assumption

/-- Sums over the bins of `q` are expectations. -/
theorem sum_binProb (P : Cell → ℝ) (q : Char) (b : PyStr) (c : Cell) (φ : ℕ → ℝ) :
    ∑ k ∈ Finset.range (g.bins q), φ k * g.binProb P q b c k = Ex g P b c (fun d => φ (binIdx q d)) := by
  unfold Grid.binProb Ex
  simp only [← mul_div_assoc, ← marg_smul]
  simp only [div_eq_mul_inv]
  rw [← Finset.sum_mul, marg_sum]
  congr 1
  apply marg_congr
  intro d hd _
  rw [Finset.sum_eq_single (binIdx q d)]
  · simp
  · intro k _ hk; simp [Ne.symm hk]
  · intro h; exact absurd (Finset.mem_range.2 (binIdx_lt hd)) h

theorem binProb_nonneg {P : Cell → ℝ} (hP : ∀ d, g.Has d → 0 ≤ P d) (q : Char) (b : PyStr) (c : Cell) (k : ℕ) :
    0 ≤ g.binProb P q b c k := by
  refine div_nonneg (sumCells_nonneg fun d hd => ?_) (condWt_nonneg hP)
  beta_reduce
  split_ifs
  · exact hP d hd
  all_goals exact le_rfl

theorem cdf_total {P : Cell → ℝ} {q : Char} {b : PyStr} {c : Cell} (h0 : g.condWt P b c ≠ 0)
    (hN : b = [] → g.sumCells P = 1) : cdf (g.binProb P q b c) (g.bins q) = 1 := by
  have := sum_binProb (g := g) P q b c (fun _ => 1)
  simp only [one_mul] at this
  unfold cdf
  rw [this, Ex_one h0 hN]

theorem lmoment_one (n : ℕ) (e p : ℕ → ℝ) : lmoment n e p 1 = ∑ i ∈ Finset.range n, centre e i * p i := by
  unfold lmoment
  refine Finset.sum_congr rfl fun i _ => ?_
  simp [legendreP, centre]

theorem cdf_succ (p : ℕ → ℝ) (i : ℕ) : cdf p (i + 1) = cdf p i + p i := by
  simp [cdf, Finset.sum_range_succ]

theorem cdf_nonneg {p : ℕ → ℝ} (hp : ∀ i, 0 ≤ p i) (i : ℕ) : 0 ≤ cdf p i := Finset.sum_nonneg fun k _ => hp k

theorem cdf_mono {p : ℕ → ℝ} (hp : ∀ i, 0 ≤ p i) {i j : ℕ} (h : i ≤ j) : cdf p i ≤ cdf p j :=
  Finset.sum_le_sum_of_subset_of_nonneg (Finset.range_mono h) fun k _ _ => hp k

theorem lmoment_two_nonneg {n : ℕ} {e p : ℕ → ℝ} (he : ∀ i < n, e i < e (i + 1)) (hp : ∀ i, 0 ≤ p i)
    (h1 : cdf p n = 1) : 0 ≤ lmoment n e p 2 := by
  have hF : ∀ i ≤ n, (2 * cdf p i - 1) ^ 2 - 1 ≤ 0 := fun i hi => by
    have a := cdf_nonneg hp i
    have b := cdf_mono hp hi
    rw [h1] at b
    nlinarith
  have key : ∀ m ≤ n, e m * ((2 * cdf p m - 1) ^ 2 - 1) / 4 ≤ lmoment m e p 2 := by
    intro m
    induction m with
    | zero => intro _; simp [lmoment, cdf]
    | succ m ih =>
      intro hm
      have ih := ih (by omega)
      have hs : lmoment (m + 1) e p 2 = lmoment m e p 2 + (e m * (2 * cdf p m - 1) +
          e (m + 1) * (2 * cdf p (m + 1) - 1)) / 2 * p m := by
        simp only [lmoment, Finset.sum_range_succ]; rfl
      have k0 := hF m (by omega)
      have k1 := hF (m + 1) hm
      have hd := he m (by omega)
      have hpm := hp m
      rw [hs]
      rw [cdf_succ] at k1 ⊢
      have a1 := mul_nonneg (sub_nonneg.2 hd.le) (neg_nonneg.2 k0)
      have a2 := mul_nonneg (sub_nonneg.2 hd.le) (neg_nonneg.2 k1)
      have a3 := mul_nonneg (sub_nonneg.2 hd.le) (mul_nonneg hpm hpm)
      nlinarith
  have := key n le_rfl
  rw [h1] at this
  norm_num at this
  exact this

theorem lmoment_affine (n : ℕ) (e p : ℕ → ℝ) (k s : ℝ) (j : ℕ) :
    lmoment n (fun i => k * e i + s) p j = k * lmoment n e p j + s * lmoment n (fun _ => 1) p j := by
  simp only [lmoment, Finset.mul_sum, ← Finset.sum_add_distrib]
  exact Finset.sum_congr rfl fun i _ => by ring

theorem lmoment_one_two (n : ℕ) (p : ℕ → ℝ) : lmoment n (fun _ => 1) p 2 = cdf p n * (cdf p n - 1) := by
  induction n with
  | zero => simp [lmoment, cdf]
  | succ n ih =>
    have hs : lmoment (n + 1) (fun _ => 1) p 2 = lmoment n (fun _ => 1) p 2 +
        (1 * (2 * cdf p n - 1) + 1 * (2 * cdf p (n + 1) - 1)) / 2 * p n := by
      simp only [lmoment, Finset.sum_range_succ]; rfl
    rw [hs, ih, cdf_succ]; ring

theorem legendreP_neg : ∀ n x, legendreP n (-x) = (-1) ^ n * legendreP n x
  | 0, _ => by simp [legendreP]
  | 1, _ => by simp [legendreP]
  | n + 2, x => by
    simp only [legendreP, legendreP_neg (n + 1), legendreP_neg n]
    rw [pow_succ, pow_succ]; ring

theorem lmoment_congr {n : ℕ} {e e' p p' : ℕ → ℝ} {j : ℕ} (he : ∀ i ≤ n, e i = e' i) (hp : ∀ i < n, p i = p' i) :
    lmoment n e p j = lmoment n e' p' j := by
  have hF : ∀ i ≤ n, cdf p i = cdf p' i := fun i hi =>
    Finset.sum_congr rfl fun k hk => hp k (by have := Finset.mem_range.1 hk; omega)
  refine Finset.sum_congr rfl fun i hi => ?_
  have hi := Finset.mem_range.1 hi
  rw [he i hi.le, he (i + 1) hi, hF i hi.le, hF (i + 1) hi, hp i hi]

/-! ### C20 -/

/-- Every L-moment of order `j ≥ 1` of `t`, `v` or `z` given `b` is Hosking's integral by the trapezoid
rule over the bins; nan where the conditioning event has probability zero. -/
theorem C20_l_moments (h : BaseIs cube stored g ρ L) (hlw : lw = true → 0 < totalLight g L (massP g ρ))
    (q : Char) (hq : q ∈ ['t','v','z']) (b : PyStr) (hb : ValidPair [q] b) (j : ℕ) (hj : 1 ≤ j) :
    Gives ((obj (baseSelf cube stored)).getLMoment (distStr [q] b) j lw) g b (fun c =>
      if g.condWt (wtdP g L (massP g ρ) lw) b c = 0 then .nan else
        .fin (lmoment (g.bins q) (g.edge q) (g.binProb (wtdP g L (massP g ρ) lw) q b c) j)) :=
  getLMoment_std (h.std hlw b) hq hb j hj

/-- The L-mean and the mean of `t`, `v` or `z` given any conditioners are the same array (nan in the
same places). -/
theorem C20_l_mean_is_mean (h : BaseIs cube stored g ρ L)
    (hlw : lw = true → 0 < totalLight g L (massP g ρ))
    (q : Char) (hq : q ∈ ['t','v','z']) (b : PyStr) (hb : ValidPair [q] b) :
    ∃ l m, (obj (baseSelf cube stored)).getLMean (distStr [q] b) lw = .ok l ∧
      getMean (baseSelf cube stored) (distStr [q] b) lw = .ok m ∧
      l.shape = g.shapeOf b ∧ m.shape = g.shapeOf b ∧
      ∀ c, g.Has c → l.get (coords b c) = m.get (coords b c) := by
  obtain ⟨l, hl, hl1, hl2⟩ := C20_l_moments h hlw q hq b hb 1 le_rfl
  have hv : varOf q = [q] := by fin_cases hq <;> rfl
  have hci : compIdx q = [] := by fin_cases hq <;> rfl
  have hcs : compShape [q] = [] := by fin_cases hq <;> rfl
  obtain ⟨m, hm, hm1, hm2⟩ := C13_means h hlw q (by fin_cases hq <;> decide) b (by rw [hv]; exact hb)
  rw [hv] at hm hm1
  rw [hcs] at hm1
  refine ⟨l, m, hl, hm, hl1, hm1, fun c hc => ?_⟩
  have := hm2 c hc
  rw [hci] at this
  rw [hl2 c hc, show m.get (coords b c) = _ from this, expect_eq]
  beta_reduce
  split_ifs with h0
  · rfl
  · rw [lmoment_one, sum_binProb]
    congr 2
    funext d
    fin_cases hq <;> rfl

/-! ### C21 -/

/-- The L-dispersion is non-negative wherever it is defined. (An unconditional mass-weighted
distribution has to be normalised; all others are automatically.) -/
theorem C21_dispersion_nonneg (h : BaseIs cube stored g ρ L)
    (hlw : lw = true → 0 < totalLight g L (massP g ρ))
    (q : Char) (hq : q ∈ ['t','v','z']) (b : PyStr) (hb : ValidPair [q] b)
    (hN : b = [] → lw = false → g.sumCells (massP g ρ) = 1) :
    ∃ r, (obj (baseSelf cube stored)).getLDispersion (distStr [q] b) lw = .ok r ∧
      r.shape = g.shapeOf b ∧
      ∀ c, g.Has c → (r.get (coords b c) = .nan ∧ b ≠ [] ∧ g.marg (wtdP g L (massP g ρ) lw) b c = 0) ∨
        ∃ x : ℝ, r.get (coords b c) = .fin x ∧ 0 ≤ x := by
  obtain ⟨r, hr, hr1, hr2⟩ := C20_l_moments h hlw q hq b hb 2 (by norm_num)
  refine ⟨r, hr, hr1, fun c hc => ?_⟩
  rw [hr2 c hc]
  beta_reduce
  by_cases h0 : g.condWt (wtdP g L (massP g ρ) lw) b c = 0
  · left
    rw [if_pos h0]
    by_cases hb0 : b = []
    · simp [Grid.condWt, hb0] at h0
    · exact ⟨rfl, hb0, by simpa [Grid.condWt, hb0] using h0⟩
  · right
    rw [if_neg h0]
    exact ⟨_, rfl, lmoment_two_nonneg (edges_increasing h.proper q)
      (fun i => binProb_nonneg (fun d hd => h.wtd_nonneg lw hd) q b c i)
      (cdf_total h0 fun e => total_one hlw (hN e))⟩

/-- Two components on grids of the same sizes that put the same probability into every cell, where the
edges `e` of `q` in the first grid are `k e + s` in the second. -/
structure Regridded (g g' : Grid) (P P' : Cell → ℝ) (q : Char) (k s : ℝ) : Prop where
  nt : g'.nt = g.nt
  nv : g'.nv = g.nv
  nx : g'.nx = g.nx
  ny : g'.ny = g.ny
  nz : g'.nz = g.nz
  edge : ∀ i ≤ g.bins q, g'.edge q i = k * g.edge q i + s
  prob : ∀ c, g.Has c → P' c = P c

theorem Regridded.sumCells {g g' : Grid} {P P' : Cell → ℝ} {q : Char} {k s : ℝ}
    (h : Regridded g g' P P' q k s) (f : Cell → ℝ) : g'.sumCells f = g.sumCells f := by
  obtain ⟨h1, h2, h3, h4, h5, -, -⟩ := h
  cases g; cases g'
  simp only at h1 h2 h3 h4 h5
  subst h1 h2 h3 h4 h5
  rfl

theorem Regridded.has {g g' : Grid} {P P' : Cell → ℝ} {q : Char} {k s : ℝ}
    (h : Regridded g g' P P' q k s) (c : Cell) : g'.Has c ↔ g.Has c := by
  simp only [Grid.Has, h.nt, h.nv, h.nx, h.ny, h.nz]

theorem Regridded.bins {g g' : Grid} {P P' : Cell → ℝ} {q : Char} {k s : ℝ}
    (h : Regridded g g' P P' q k s) : g'.bins q = g.bins q := by
  simp only [Grid.bins, h.nt, h.nv, h.nx, h.ny, h.nz]

theorem Regridded.marg {g g' : Grid} {P P' : Cell → ℝ} {q : Char} {k s : ℝ}
    (h : Regridded g g' P P' q k s) (f f' : Cell → ℝ) (hf : ∀ c, g.Has c → f' c = f c) (b : PyStr) (c : Cell) :
    g'.marg f' b c = g.marg f b c := by
  have : g'.marg f' b c = g.marg f' b c := h.sumCells _
  rw [this]
  exact marg_congr fun d hd _ => hf d hd

theorem Regridded.condWt {g g' : Grid} {P P' : Cell → ℝ} {q : Char} {k s : ℝ}
    (h : Regridded g g' P P' q k s) (b : PyStr) (c : Cell) : g'.condWt P' b c = g.condWt P b c := by
  unfold Grid.condWt
  rw [h.marg P P' h.prob]

theorem Regridded.binProb {g g' : Grid} {P P' : Cell → ℝ} {q : Char} {k s : ℝ}
    (h : Regridded g g' P P' q k s) (b : PyStr) (c : Cell) (i : ℕ) :
    g'.binProb P' q b c i = g.binProb P q b c i := by
  unfold Grid.binProb
  rw [h.condWt, h.marg (fun d => if binIdx q d = i then P d else 0)]
  intro d hd; rw [h.prob d hd]

theorem Regridded.shapeOf {g g' : Grid} {P P' : Cell → ℝ} {q : Char} {k s : ℝ}
    (h : Regridded g g' P P' q k s) (w : PyStr) : g'.shapeOf w = g.shapeOf w := by
  have : g'.shape1 = g.shape1 := by
    funext ch; simp only [Grid.shape1, h.nt, h.nv, h.nx, h.ny, h.nz]
  simp only [Grid.shapeOf, this]

section
variable {cube' : IFUCube} {stored' : Arr Num} {g' : Grid} {ρ' : Cell → ℝ} {L' : ℕ → ℕ → ℝ}

/-- How any L-moment reacts to a linear change of the grid of `q`: it is multiplied by the scale, and
the shift enters with the L-moment of the constant 1, a number that depends on the probabilities
only. -/
theorem C21_affine (h : BaseIs cube stored g ρ L) (hlw : lw = true → 0 < totalLight g L (massP g ρ))
    (h' : BaseIs cube' stored' g' ρ' L') (hlw' : lw = true → 0 < totalLight g' L' (massP g' ρ'))
    (q : Char) (hq : q ∈ ['t','v','z']) (b : PyStr) (hb : ValidPair [q] b) (k s : ℝ)
    (hR : Regridded g g' (wtdP g L (massP g ρ) lw) (wtdP g' L' (massP g' ρ') lw) q k s)
    (j : ℕ) (hj : 1 ≤ j) :
    ∃ r r', (obj (baseSelf cube stored)).getLMoment (distStr [q] b) j lw = .ok r ∧
      (obj (baseSelf cube' stored')).getLMoment (distStr [q] b) j lw = .ok r' ∧ r'.shape = r.shape ∧
      ∀ c, g.Has c → (r.get (coords b c) = .nan ∧ r'.get (coords b c) = .nan ∧
          g.condWt (wtdP g L (massP g ρ) lw) b c = 0) ∨
        ∃ x : ℝ, r.get (coords b c) = .fin x ∧ r'.get (coords b c) = .fin (k * x + s *
          lmoment (g.bins q) (fun _ => 1) (g.binProb (wtdP g L (massP g ρ) lw) q b c) j) ∧
          g.condWt (wtdP g L (massP g ρ) lw) b c ≠ 0 := by
  obtain ⟨r, hr, hr1, hr2⟩ := C20_l_moments h hlw q hq b hb j hj
  obtain ⟨r', hr', hr1', hr2'⟩ := C20_l_moments h' hlw' q hq b hb j hj
  refine ⟨r, r', hr, hr', by rw [hr1', hr1, hR.shapeOf], fun c hc => ?_⟩
  have e := hr2' c ((hR.has c).2 hc)
  beta_reduce at e
  rw [hR.condWt, hR.bins, lmoment_congr (e' := fun i => k * g.edge q i + s)
    (p' := g.binProb (wtdP g L (massP g ρ) lw) q b c) hR.edge (fun i _ => hR.binProb b c i),
    lmoment_affine] at e
  rw [hr2 c hc, e]
  beta_reduce
  by_cases h0 : g.condWt (wtdP g L (massP g ρ) lw) b c = 0
  · left; simp [h0]
  · right; simp only [h0, if_false]; exact ⟨_, rfl, rfl, h0⟩

/-- Scaling the grid of `q` by `k` multiplies every L-moment by `k`. -/
theorem C21_scaling (h : BaseIs cube stored g ρ L) (hlw : lw = true → 0 < totalLight g L (massP g ρ))
    (h' : BaseIs cube' stored' g' ρ' L') (hlw' : lw = true → 0 < totalLight g' L' (massP g' ρ'))
    (q : Char) (hq : q ∈ ['t','v','z']) (b : PyStr) (hb : ValidPair [q] b) (k : ℝ)
    (hR : Regridded g g' (wtdP g L (massP g ρ) lw) (wtdP g' L' (massP g' ρ') lw) q k 0)
    (j : ℕ) (hj : 1 ≤ j) :
    ∃ r r', (obj (baseSelf cube stored)).getLMoment (distStr [q] b) j lw = .ok r ∧
      (obj (baseSelf cube' stored')).getLMoment (distStr [q] b) j lw = .ok r' ∧ r'.shape = r.shape ∧
      ∀ c, g.Has c → r'.get (coords b c) = .fin k * r.get (coords b c) := by
  obtain ⟨r, r', h1, h2, h3, h4⟩ := C21_affine h hlw h' hlw' q hq b hb k 0 hR j hj
  refine ⟨r, r', h1, h2, h3, fun c hc => ?_⟩
  rcases h4 c hc with ⟨e, e', -⟩ | ⟨x, e, e', -⟩
  · rw [e, e']; simp
  · rw [e, e']; simp

/-- Shifting the grid of `q` by `s` does not change the L-dispersion.

Partial: property C21 claims this for every order `j ≥ 2`. It holds for `j = 2` only; see
`C21_translation_fails` for `j = 3` and `C21_affine` (with `k = 1`) for what the code does at other
orders. -/
theorem C21_translation_partial (h : BaseIs cube stored g ρ L)
    (hlw : lw = true → 0 < totalLight g L (massP g ρ))
    (h' : BaseIs cube' stored' g' ρ' L') (hlw' : lw = true → 0 < totalLight g' L' (massP g' ρ'))
    (q : Char) (hq : q ∈ ['t','v','z']) (b : PyStr) (hb : ValidPair [q] b) (s : ℝ)
    (hR : Regridded g g' (wtdP g L (massP g ρ) lw) (wtdP g' L' (massP g' ρ') lw) q 1 s)
    (hN : b = [] → lw = false → g.sumCells (massP g ρ) = 1) :
    ∃ r r', (obj (baseSelf cube stored)).getLDispersion (distStr [q] b) lw = .ok r ∧
      (obj (baseSelf cube' stored')).getLDispersion (distStr [q] b) lw = .ok r' ∧ r'.shape = r.shape ∧
      ∀ c, g.Has c → r'.get (coords b c) = r.get (coords b c) := by
  obtain ⟨r, r', h1, h2, h3, h4⟩ := C21_affine h hlw h' hlw' q hq b hb 1 s hR 2 (by norm_num)
  refine ⟨r, r', h1, h2, h3, fun c hc => ?_⟩
  rcases h4 c hc with ⟨e, e', -⟩ | ⟨x, e, e', h0⟩
  · rw [e, e']
  · rw [e, e', lmoment_one_two, cdf_total h0 fun e => total_one hlw (hN e)]; simp

end

/-- Uniform density on a cube over `demoSSPs`. -/
def uniformStored (nx ny nv : ℕ) : Arr Num := ⟨[2, nv, nx, ny, 3], fun _ => Num.lg 1⟩

/-- Grid of such a cube. -/
def uniformGrid (nx ny nv : ℕ) (vrng : ℝ × ℝ) : Grid :=
  cubeGrid 2 3 (fun i => (i : ℝ) ^ 2) (fun i => (i : ℝ) ^ 2) nx ny nv (-1, 1) (0, 3) vrng

theorem uniformBase (nx ny nv : ℕ) (hx : 0 < nx) (hy : 0 < ny) (hv : 0 < nv) (vrng : ℝ × ℝ)
    (h : vrng.1 < vrng.2) : ∃ cube, IFUCube.init demoSSPs nx ny nv (-1, 1) (0, 3) vrng = .ok cube ∧
    BaseIs cube (uniformStored nx ny nv) (uniformGrid nx ny nv vrng) (fun _ => 1) demoL := by
  obtain ⟨c, h1, h2, h3, -⟩ := C03_constructor demoSSPs_are nx ny nv hx hy hv (-1, 1) (0, 3) vrng
  refine ⟨c, h1, ⟨C03_proper (by norm_num) (by norm_num)
    (fun i _ => by push_cast; nlinarith [(Nat.cast_nonneg i : (0 : ℝ) ≤ i)])
    (fun i _ => by push_cast; nlinarith [(Nat.cast_nonneg i : (0 : ℝ) ≤ i)]) hx hy hv (by norm_num) (by norm_num) h, h2,
    ⟨rfl, fun c _ => rfl⟩, fun _ => zero_le_one, ?_, ?_⟩⟩
  · rw [h3]; exact ⟨rfl, fun c _ => rfl⟩
  · intro t z; unfold demoL; positivity

theorem uniform_weight (nx ny nv : ℕ) (hx : 0 < nx) (hy : 0 < ny) (hv : 0 < nv) (vrng : ℝ × ℝ)
    (h : vrng.1 < vrng.2) (b : PyStr) {c : Cell} (hc : (uniformGrid nx ny nv vrng).Has c) :
    (uniformGrid nx ny nv vrng).condWt (wtdP (uniformGrid nx ny nv vrng) demoL
      (massP (uniformGrid nx ny nv vrng) (fun _ => 1)) false) b c ≠ 0 := by
  obtain ⟨cube, -, hB⟩ := uniformBase nx ny nv hx hy hv vrng h
  unfold Grid.condWt
  split_ifs
  · exact one_ne_zero
  · refine (sumCells_pos (c := c) (fun d hd => ?_) hc ?_).ne'
    · split_ifs
      · exact hB.wtd_nonneg false hd
      · exact le_rfl
    · simp only [if_true, wtdP]
      exact mul_pos one_pos (cellVolume_pos hB.proper hc)

/-- Translation invariance fails at order 3: a cube with one velocity bin and its copy shifted by 1
have third L-moments 0 and 1 of `v` given `t`. -/
theorem C21_translation_fails : ∃ cube cube' stored r r',
    IFUCube.init demoSSPs 1 1 1 (-1, 1) (0, 3) (-1, 1) = .ok cube ∧
    IFUCube.init demoSSPs 1 1 1 (-1, 1) (0, 3) (0, 2) = .ok cube' ∧
    Component.init cube stored = .ok stored ∧ Component.init cube' stored = .ok stored ∧
    (obj (baseSelf cube stored)).getLMoment (distStr ['v'] ['t']) 3 false = .ok r ∧
    (obj (baseSelf cube' stored)).getLMoment (distStr ['v'] ['t']) 3 false = .ok r' ∧
    r.get [0] = .fin 0 ∧ r'.get [0] = .fin 1 := by
  have main : ∀ vrng : ℝ × ℝ, vrng.1 < vrng.2 → ∃ cube r,
      IFUCube.init demoSSPs 1 1 1 (-1, 1) (0, 3) vrng = .ok cube ∧
      Component.init cube (uniformStored 1 1 1) = .ok (uniformStored 1 1 1) ∧
      (obj (baseSelf cube (uniformStored 1 1 1))).getLMoment (distStr ['v'] ['t']) 3 false = .ok r ∧
      r.get [0] = .fin ((vrng.1 + vrng.2) / 2) := by
    intro vrng hv
    obtain ⟨cube, h1, hB⟩ := uniformBase 1 1 1 one_pos one_pos one_pos vrng hv
    obtain ⟨r, hr, -, hr2⟩ := C20_l_moments (lw := false) hB (by simp) 'v' (by decide) ['t'] (by decide) 3
      (by norm_num)
    refine ⟨cube, r, h1, (C04_constructor_shape hB.cubeIs hB.proper _).1 rfl, hr, ?_⟩
    have hc : (uniformGrid 1 1 1 vrng).Has ⟨0, 0, 0, 0, 0⟩ := by
      simp [Grid.Has, uniformGrid, cubeGrid]
    have e := hr2 ⟨0, 0, 0, 0, 0⟩ hc
    have hw := uniform_weight 1 1 1 one_pos one_pos one_pos vrng hv ['t'] hc
    have ht := cdf_total (q := 'v') hw (by simp)
    beta_reduce at e
    rw [if_neg hw] at e
    have hb : (uniformGrid 1 1 1 vrng).bins 'v' = 1 := rfl
    rw [hb] at e ht
    have hc0 : ∀ p : ℕ → ℝ, cdf p 0 = 0 := fun p => by simp [cdf]
    have hp := ht
    simp only [cdf, Finset.sum_range_one] at hp
    rw [lmoment, Finset.sum_range_one, zero_add, hc0, ht, hp] at e
    have e' : r.get [0] = _ := e
    rw [e']
    have e0 : (uniformGrid 1 1 1 vrng).edge 'v' 0 = vrng.1 := by
      simp [Grid.edge, uniformGrid, cubeGrid, evenEdges]
    have e1 : (uniformGrid 1 1 1 vrng).edge 'v' 1 = vrng.2 := by
      simp [Grid.edge, uniformGrid, cubeGrid, evenEdges]
    rw [e0, e1]
    norm_num [legendreP]
  obtain ⟨c, r, h1, h2, h3, h4⟩ := main (-1, 1) (by norm_num)
  obtain ⟨c', r', h1', h2', h3', h4'⟩ := main (0, 2) (by norm_num)
  exact ⟨c, c', _, r, r', h1, h1', h2, h2', h3, h3', by rw [h4]; norm_num, by rw [h4']; norm_num⟩

/-- The hypotheses of the two-grid theorems are met by uniform components on velocity grids shifted by
any `s`. -/
example (nv : ℕ) (hv : 0 < nv) (s : ℝ) : ∃ cube cube' r r',
    IFUCube.init demoSSPs 2 3 nv (-1, 1) (0, 3) (-1, 1) = .ok cube ∧
    IFUCube.init demoSSPs 2 3 nv (-1, 1) (0, 3) (-1 + s, 1 + s) = .ok cube' ∧
    (obj (baseSelf cube (uniformStored 2 3 nv))).getLDispersion (distStr ['v'] ['t']) false = .ok r ∧
    (obj (baseSelf cube' (uniformStored 2 3 nv))).getLDispersion (distStr ['v'] ['t']) false = .ok r' ∧
    r'.get [1] = r.get [1] ∧ ∃ x : ℝ, r.get [1] = .fin x := by
  obtain ⟨c, h1, hB⟩ := uniformBase 2 3 nv (by norm_num) (by norm_num) hv (-1, 1) (by norm_num)
  obtain ⟨c', h1', hB'⟩ := uniformBase 2 3 nv (by norm_num) (by norm_num) hv (-1 + s, 1 + s) (by simp)
  have he : ∀ i, evenEdges (-1 + s, 1 + s) nv i = 1 * evenEdges (-1, 1) nv i + s := by
    intro i; simp only [evenEdges]; ring
  have hR : Regridded (uniformGrid 2 3 nv (-1, 1)) (uniformGrid 2 3 nv (-1 + s, 1 + s))
      (wtdP (uniformGrid 2 3 nv (-1, 1)) demoL (massP (uniformGrid 2 3 nv (-1, 1)) (fun _ => 1)) false)
      (wtdP (uniformGrid 2 3 nv (-1 + s, 1 + s)) demoL
        (massP (uniformGrid 2 3 nv (-1 + s, 1 + s)) (fun _ => 1)) false) 'v' 1 s := by
    refine ⟨rfl, rfl, rfl, rfl, rfl, fun i _ => ?_, fun c _ => ?_⟩
    · exact he i
    · have e1 : ∀ i, width (evenEdges (-1 + s, 1 + s) nv) i = width (evenEdges (-1, 1) nv) i := fun i => by
        simp only [width, he]; ring
      simp only [wtdP, Bool.false_eq_true, if_false]
      simp only [massP, Grid.cellVolume, uniformGrid, cubeGrid, e1]
  obtain ⟨r, r', h2, h3, -, h4⟩ := C21_translation_partial (lw := false) hB (by simp) hB' (by simp) 'v'
    (by decide) ['t'] (by decide) s hR (by simp)
  have hc : (uniformGrid 2 3 nv (-1, 1)).Has ⟨1, 0, 0, 0, 0⟩ := by
    simp [Grid.Has, uniformGrid, cubeGrid, hv]
  obtain ⟨r2, h5, -, h6⟩ := C21_dispersion_nonneg (lw := false) hB (by simp) 'v' (by decide) ['t'] (by decide)
    (by simp)
  have e : r2 = r := by
    have := h5.symm.trans h2
    injection this
  subst e
  refine ⟨c, c', r2, r', h1, h1', h2, h3, h4 _ hc, ?_⟩
  rcases h6 _ hc with ⟨-, -, h⟩ | ⟨x, hx, -⟩
  · have := uniform_weight 2 3 nv (by norm_num) (by norm_num) hv (-1, 1) (by norm_num) ['t'] hc
    simp [Grid.condWt] at this
    exact absurd h this
  · exact ⟨x, hx⟩

/-! ### C22 -/

/-- L-moments of the position raise `ValueError` for all conditioners and orders. -/
theorem C22_position_rejected (h : BaseIs cube stored g ρ L)
    (hlw : lw = true → 0 < totalLight g L (massP g ρ)) (b : PyStr) (hb : ValidPair ['x'] b) (j : ℤ) :
    (obj (baseSelf cube stored)).getLMoment (distStr ['x'] b) j lw = .error .valueError := by
  obtain ⟨h1, h2, h3, h4, -⟩ := validPair_facts ['x'] b hb
  have hst := h.std hlw b
  obtain ⟨A, hA, hA', -⟩ := hst.tab _ hb
  have hsA : A.shape = g.nx :: g.ny :: g.shapeOf b := by
    rw [hA', List.map_append, ← shapeOf_letters g h4]; rfl
  have hh := headVar_distStr h3 h4
  unfold Obj.getLMoment
  rw [hh, if_pos (by rfl), hA]
  by_cases hb0 : b = []
  · subst hb0
    simp [distStr, concat0, full, cumsum0, hsA]
  · have hd : distStr ['x'] b = condStr ['x'] b := by simp [distStr, hb0]
    have hl : (condStr ['x'] b).length ≠ 1 := by simp [condStr]
    have hsh := C02_distribution_shape hst.cube hst.proper b (by
      intro ch hch
      have := h4 ch hch
      simp only [List.mem_cons, List.not_mem_nil, or_false] at this ⊢; tauto)
    have hne : ¬ g.shapeOf b = g.ny :: g.shapeOf b := by
      intro e
      have := congrArg List.length e
      simp at this
    rw [hd, if_neg hl, condVars_condStr h3 h4]
    simp [Except.map, hsh, concat0, full, cumsum0, hsA, hne]

/-- More than one dependent variable fails an assertion, for every object, conditioner and order. -/
theorem C22_one_variable (o : Obj) (a b : PyStr) (ha : '_' ∉ a) (hb : '_' ∉ b) (h1 : a.length ≠ 1) (j : ℤ) :
    o.getLMoment a j lw = .error .assertionError ∧
    o.getLMoment (condStr a b) j lw = .error .assertionError := by
  have e1 : headVar a = a := by unfold headVar; rw [split_noUnderscore ha]; rfl
  have e2 : headVar (condStr a b) = a := by unfold headVar; rw [split_condStr ha hb]; rfl
  constructor
  · unfold Obj.getLMoment; rw [e1, if_neg h1]
  · unfold Obj.getLMoment; rw [e2, if_neg h1]

/-- An order below 1 raises `ValueError`. -/
theorem C22_order_positive (h : BaseIs cube stored g ρ L)
    (hlw : lw = true → 0 < totalLight g L (massP g ρ)) (a : Char) (b : PyStr) (hb : ValidPair [a] b)
    (j : ℤ) (hj : j < 1) :
    (obj (baseSelf cube stored)).getLMoment (distStr [a] b) j lw = .error .valueError := by
  have ha : a ∈ ['t','v','z'] ∨ a = 'x' := by
    have h3 := (validPair_facts [a] b hb).2.2.1
    have := h3 a (by simp)
    simp only [List.mem_cons, List.not_mem_nil, or_false] at this ⊢; tauto
  rcases ha with hq | rfl
  · exact getLMoment_order (h.std hlw b) hq hb j hj
  · exact C22_position_rejected h hlw b hb j

/-- The reference value: for a quantile function that is odd about 1/2, the odd L-moments are exactly
zero. -/
theorem C22_normal_odd (ppf : ℝ → ℝ) (hodd : ∀ F, 0 < F → F < 1 → ppf (1 - F) = -ppf F) (m : ℕ) :
    Obj.lMomentNormal ppf (2 * m + 1 : ℕ) = .ok 0 := by
  unfold Obj.lMomentNormal
  have h1 : ¬ (((2 * m + 1 : ℕ) : ℤ) - 1 < 0) := by push_cast; omega
  have h2 : (((2 * m + 1 : ℕ) : ℤ) - 1).toNat = 2 * m := by push_cast; omega
  simp only [h1, h2, if_false]
  have key : ∀ S : ℝ, S = -S → S = 0 := fun S h => by linarith
  have hz : ∑ i ∈ Finset.range 99999, ppf (((i : ℝ) / 99999 + ((i + 1 : ℕ) : ℝ) / 99999) / 2) *
      Obj.legendre (2 * m) (2 * (((i : ℝ) / 99999 + ((i + 1 : ℕ) : ℝ) / 99999) / 2) - 1) *
      (((i + 1 : ℕ) : ℝ) / 99999 - (i : ℝ) / 99999) = 0 := by
    apply key
    conv_lhs => rw [← Finset.sum_range_reflect]
    rw [← Finset.sum_neg_distrib]
    refine Finset.sum_congr rfl fun i hi => ?_
    have hi := Finset.mem_range.1 hi
    have hi' : (i : ℝ) + 1 ≤ 99999 := by exact_mod_cast hi
    have e : ((99999 - 1 - i : ℕ) : ℝ) = 99998 - i := by
      rw [Nat.cast_sub (by omega)]; norm_num
    have hF : (((99999 - 1 - i : ℕ) : ℝ) / 99999 + ((99999 - 1 - i + 1 : ℕ) : ℝ) / 99999) / 2 =
        1 - ((i : ℝ) / 99999 + ((i + 1 : ℕ) : ℝ) / 99999) / 2 := by
      rw [Nat.cast_add, e]; push_cast; ring
    have hd : ((99999 - 1 - i + 1 : ℕ) : ℝ) / 99999 - ((99999 - 1 - i : ℕ) : ℝ) / 99999 =
        ((i + 1 : ℕ) : ℝ) / 99999 - (i : ℝ) / 99999 := by
      rw [Nat.cast_add, e]; push_cast; ring
    rw [hF, hd, hodd _ (by positivity) (by push_cast; linarith)]
    have hl : 2 * (1 - ((i : ℝ) / 99999 + ((i + 1 : ℕ) : ℝ) / 99999) / 2) - 1 =
        -(2 * (((i : ℝ) / 99999 + ((i + 1 : ℕ) : ℝ) / 99999) / 2) - 1) := by ring
    rw [hl, legendre_eq, legendre_eq, legendreP_neg, pow_mul]
    norm_num
  rw [hz]
  simp [Obj.isclose0]

/-- What is used of the quantile function of the unit normal: it is odd about 1/2, increasing, and at
3/4 it exceeds 0.6 (the true value is 0.6745). -/
structure NormalQuantile (ppf : ℝ → ℝ) : Prop where
  odd : ∀ F, 0 < F → F < 1 → ppf (1 - F) = -ppf F
  mono : ∀ F F', 0 < F → F ≤ F' → F' < 1 → ppf F ≤ ppf F'
  quartile : 0.6 ≤ ppf 0.75

/-- The second L-moment of the reference is positive. -/
theorem C22_normal_dispersion {ppf : ℝ → ℝ} (h : NormalQuantile ppf) :
    ∃ l, Obj.lMomentNormal ppf 2 = .ok l ∧ 0 < l := by
  have h0 : ppf (1 / 2) = 0 := by
    have := h.odd (1 / 2) (by norm_num) (by norm_num)
    norm_num at this
    norm_num
    linarith
  have hterm : ∀ i ∈ Finset.range 99999, 0 ≤ ppf (((i : ℝ) / 99999 + ((i + 1 : ℕ) : ℝ) / 99999) / 2) *
      Obj.legendre 1 (2 * (((i : ℝ) / 99999 + ((i + 1 : ℕ) : ℝ) / 99999) / 2) - 1) *
      (((i + 1 : ℕ) : ℝ) / 99999 - (i : ℝ) / 99999) := by
    intro i hi
    have hi := Finset.mem_range.1 hi
    have hi' : (i : ℝ) + 1 ≤ 99999 := by exact_mod_cast hi
    have hi0 : (0 : ℝ) ≤ i := by positivity
    have p1 : 0 < ((i : ℝ) / 99999 + ((i + 1 : ℕ) : ℝ) / 99999) / 2 := by positivity
    have p2 : ((i : ℝ) / 99999 + ((i + 1 : ℕ) : ℝ) / 99999) / 2 < 1 := by
      push_cast; linarith
    have p3 : 0 ≤ ((i + 1 : ℕ) : ℝ) / 99999 - (i : ℝ) / 99999 := by push_cast; ring_nf; norm_num
    generalize ((i : ℝ) / 99999 + ((i + 1 : ℕ) : ℝ) / 99999) / 2 = F at p1 p2
    refine mul_nonneg ?_ p3
    show 0 ≤ ppf F * (2 * F - 1)
    rcases le_total (1 / 2) F with hF | hF
    · have := h.mono (1 / 2) F (by norm_num) hF p2
      exact mul_nonneg (by linarith) (by linarith)
    · have := h.mono F (1 / 2) p1 hF (by norm_num)
      exact mul_nonneg_of_nonpos_of_nonpos (by linarith) (by linarith)
  have hlast : 3 / 10 ^ 6 ≤ ppf (((99998 : ℕ) / 99999 + ((99998 + 1 : ℕ) : ℝ) / 99999) / 2) *
      Obj.legendre 1 (2 * ((((99998 : ℕ) : ℝ) / 99999 + ((99998 + 1 : ℕ) : ℝ) / 99999) / 2) - 1) *
      (((99998 + 1 : ℕ) : ℝ) / 99999 - ((99998 : ℕ) : ℝ) / 99999) := by
    have := h.mono 0.75 (((99998 : ℕ) / 99999 + ((99998 + 1 : ℕ) : ℝ) / 99999) / 2) (by norm_num)
      (by norm_num) (by norm_num)
    have hq := h.quartile
    generalize hp : ppf (((99998 : ℕ) / 99999 + ((99998 + 1 : ℕ) : ℝ) / 99999) / 2) = p at *
    simp only [Obj.legendre]
    norm_num at *
    nlinarith
  have hS := (hlast.trans (Finset.single_le_sum hterm (Finset.mem_range.2 (by norm_num : 99998 < 99999))))
  unfold Obj.lMomentNormal
  have e1 : ¬ ((2 : ℤ) - 1 < 0) := by norm_num
  have e2 : ((2 : ℤ) - 1).toNat = 1 := by norm_num
  simp only [e1, e2, if_false]
  refine ⟨_, rfl, ?_⟩
  rw [if_neg]
  · exact lt_of_lt_of_le (by norm_num) hS
  · unfold Obj.isclose0
    rw [not_le]
    exact lt_of_lt_of_le (lt_of_lt_of_le (by norm_num) hS) (le_abs_self _)

theorem Num.sub_zero (x : Num) : x - .fin 0 = x := by
  cases x with
  | fin a => rw [Num.fin_sub, _root_.sub_zero]
  | nan => rfl
  | pinf => rfl
  | ninf => rfl

/-- The excess L-moments of odd order are the normalised L-moments: same values, and an error exactly
when these raise one. -/
theorem C22_excess_odd {ppf : ℝ → ℝ} (h : NormalQuantile ppf) (o : Obj) (w : PyStr) (m : ℕ) :
    (∀ e, o.getNormalisedLMoment w (2 * m + 1 : ℕ) lw = .error e →
      o.getExcessLMoment ppf w (2 * m + 1 : ℕ) lw = .error e) ∧
    ∀ r, o.getNormalisedLMoment w (2 * m + 1 : ℕ) lw = .ok r →
      ∃ r', o.getExcessLMoment ppf w (2 * m + 1 : ℕ) lw = .ok r' ∧ r'.shape = r.shape ∧
        ∀ i, InBox r.shape i → r'.get i = r.get i := by
  obtain ⟨l, hl, hl0⟩ := C22_normal_dispersion h
  have hn : Obj.normalisedLMomentNormal ppf (2 * m + 1 : ℕ) = .ok (.fin 0) := by
    unfold Obj.normalisedLMomentNormal
    rw [C22_normal_odd ppf h.odd m, hl]
    show Except.ok (Num.fin 0 / Num.fin l) = _
    rw [Num.fin_div _ _ hl0.ne', zero_div]
  unfold Obj.getExcessLMoment
  refine ⟨fun e he => by rw [he]; rfl, fun r hr => ?_⟩
  obtain ⟨r', h1, h2, h3⟩ := bop_scalar_right (· - ·) r (.fin 0)
  refine ⟨r', ?_, h2, fun i hi => ?_⟩
  · rw [hr, hn]; exact h1
  · rw [h3 i hi, Num.sub_zero]

/-- The assumptions on the quantile function are consistent. -/
example : NormalQuantile (fun F => 4 * (F - 1 / 2)) :=
  ⟨fun F _ _ => by ring, fun F F' _ h _ => by linarith, by norm_num⟩

/-- The rejection applies to the component of the examples, for all orders. -/
example (j : ℤ) : ∃ cube, (obj (baseSelf cube demoStored)).getLMoment ['x','_','t'] j true =
    .error .valueError := by
  obtain ⟨cube, -, -, h, -, hl, -⟩ := demoBase
  exact ⟨cube, C22_position_rejected h (fun _ => hl) ['t'] (by decide) j⟩

end PKM
