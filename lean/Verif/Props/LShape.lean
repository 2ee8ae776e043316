import Verif.Props.PopDerived
import Verif.Props.ParamDerived

/-!
# C72: L-moments in units of the L-dispersion (L-skewness, L-kurtosis)
-/

open scoped Classical
open MeasureTheory

noncomputable section

namespace PKM
open Np Component

variable {g : Grid} {L : ℕ → ℕ → ℝ} {lw : Bool} {b : PyStr}

/-! ### Numbers -/

/-- The L-dispersion as a sum of squares, and a term that vanishes for probabilities that sum to one. -/
theorem lmoment_two_eq (n : ℕ) (e p : ℕ → ℝ) : lmoment n e p 2 = e n * ((2 * cdf p n - 1) ^ 2 - 1) / 4 +
    ∑ i ∈ Finset.range n, width e i * (p i ^ 2 / 2 + (1 - (2 * cdf p i - 1) ^ 2) / 8 + (1 - (2 * cdf p (i + 1) - 1) ^ 2) / 8) := by
  induction n with
  | zero => simp [lmoment, cdf]
  | succ n ih =>
    have hs : lmoment (n + 1) e p 2 = lmoment n e p 2 + (e n * (2 * cdf p n - 1) +
        e (n + 1) * (2 * cdf p (n + 1) - 1)) / 2 * p n := by
      simp only [lmoment, Finset.sum_range_succ]; rfl
    rw [hs, ih, Finset.sum_range_succ, cdf_succ, width]
    ring

/-- The L-dispersion of a distribution on increasing edges is positive. -/
theorem lmoment_two_pos {n : ℕ} {e p : ℕ → ℝ} (he : ∀ i < n, e i < e (i + 1)) (hp : ∀ i < n, 0 ≤ p i) (h1 : cdf p n = 1) :
    0 < lmoment n e p 2 := by
  have hnn : ∀ i ≤ n, 0 ≤ cdf p i := fun i hi => Finset.sum_nonneg fun k hk => hp k ((Finset.mem_range.1 hk).trans_le hi)
  have hle : ∀ i ≤ n, cdf p i ≤ 1 := fun i hi => h1 ▸ Finset.sum_le_sum_of_subset_of_nonneg (Finset.range_mono hi)
    fun k hk _ => hp k (Finset.mem_range.1 hk)
  have hx : ∀ i ≤ n, 0 ≤ 1 - (2 * cdf p i - 1) ^ 2 := fun i hi => by nlinarith [hnn i hi, hle i hi]
  obtain ⟨i, hi, hpi⟩ : ∃ i ∈ Finset.range n, 0 < p i := by
    by_contra hno
    push Not at hno
    have : cdf p n ≤ 0 := Finset.sum_nonpos hno
    linarith
  rw [lmoment_two_eq, h1]
  have : 0 < ∑ i ∈ Finset.range n, width e i * (p i ^ 2 / 2 + (1 - (2 * cdf p i - 1) ^ 2) / 8 + (1 - (2 * cdf p (i + 1) - 1) ^ 2) / 8) := by
    refine Finset.sum_pos' (fun k hk => ?_) ⟨i, hi, ?_⟩
    · have hk := Finset.mem_range.1 hk
      have a := hx k hk.le
      have b := hx (k + 1) hk
      have c : 0 < width e k := sub_pos.2 (he k hk)
      positivity
    · have hk := Finset.mem_range.1 hi
      have a := hx i hk.le
      have b := hx (i + 1) hk
      have c : 0 < width e i := sub_pos.2 (he i hk)
      positivity
  norm_num
  exact this

/-- Reflection of the axis changes the sign of odd L-moments. -/
theorem lmoment_reflect {n : ℕ} {e p e' p' : ℕ → ℝ} (he : ∀ i ≤ n, e' i = -e (n - i)) (hp : ∀ i < n, p' i = p (n - 1 - i))
    (h1 : cdf p n = 1) (j : ℕ) (hj : 1 ≤ j) : lmoment n e' p' j = (-1) ^ j * lmoment n e p j := by
  have hF : ∀ i ≤ n, cdf p' i = 1 - cdf p (n - i) := by
    intro i
    induction i with
    | zero =>
      intro _
      rw [Nat.sub_zero, h1]
      simp [cdf]
    | succ i ih =>
      intro hi
      have h2 : n - i = (n - (i + 1)) + 1 := by omega
      rw [cdf_succ, ih (by omega), hp i (by omega), h2, cdf_succ, show n - 1 - i = n - (i + 1) by omega]
      ring
  have hl : ∀ F : ℝ, legendreP (j - 1) (2 * (1 - F) - 1) = (-1) ^ (j - 1) * legendreP (j - 1) (2 * F - 1) := fun F => by
    rw [← legendreP_neg]
    congr 1
    ring
  obtain ⟨k, rfl⟩ : ∃ k, j = k + 1 := ⟨j - 1, by omega⟩
  unfold lmoment
  rw [← Finset.sum_range_reflect, Finset.mul_sum]
  refine Finset.sum_congr rfl fun i hi => ?_
  have hi := Finset.mem_range.1 hi
  have a : n - (n - 1 - i) = i + 1 := by omega
  have b : n - (n - 1 - i + 1) = i := by omega
  rw [he _ (by omega), he _ (by omega), hp _ (by omega), hF _ (by omega), hF _ (by omega), a, b, hl, hl,
    show n - 1 - (n - 1 - i) = i by omega, show k + 1 - 1 = k by omega]
  rw [pow_succ]
  ring

/-! ### Arrays -/

/-- The quotient of two answers. -/
theorem normalised_of {o : Obj} {w : PyStr} {j : ℕ} {l d : Arr Num} (h2 : o.getLMoment w (2 : ℕ) lw = .ok d)
    (hj : o.getLMoment w j lw = .ok l) (hs : l.shape = d.shape) : ∃ r, o.getNormalisedLMoment w j lw = .ok r ∧ r.shape = l.shape ∧
      ∀ i, InBox l.shape i → r.get i = l.get i / d.get i := by
  obtain ⟨r, h3, h4, h5⟩ := bop_same (· / ·) hs
  refine ⟨r, ?_, h4, h5⟩
  unfold Obj.getNormalisedLMoment Obj.getLDispersion
  rw [show ((2 : ℤ)) = ((2 : ℕ) : ℤ) from rfl, h2, Py.ok_bind, hj, Py.ok_bind]
  exact h3

/-- What is claimed of a normalised L-moment `x` for the probabilities `π` of bins with edges `e`: it is the quotient of the two L-moments,
and a number if the probabilities are a distribution. -/
def IsNormalised (x : Num) (n : ℕ) (e π : ℕ → ℝ) (j : ℕ) : Prop :=
  x = .fin (lmoment n e π j) / .fin (lmoment n e π 2) ∧
  ((∀ i < n, 0 ≤ π i) → ∑ i ∈ Finset.range n, π i = 1 →
    0 < lmoment n e π 2 ∧ x = .fin (lmoment n e π j / lmoment n e π 2))

theorem isNormalised {x : Num} {n : ℕ} {e π : ℕ → ℝ} {j : ℕ} (he : ∀ i < n, e i < e (i + 1))
    (hx : x = .fin (lmoment n e π j) / .fin (lmoment n e π 2)) : IsNormalised x n e π j := by
  refine ⟨hx, fun h0 h1 => ?_⟩
  have h2 := lmoment_two_pos he h0 h1
  exact ⟨h2, by rw [hx, Num.fin_div _ _ h2.ne']⟩

/-- The common part of the three theorems that follow. -/
theorem normalised_tab {o : Obj} {get : Py (Arr Num)} {q : Char} (hg : g.Proper) (j : ℕ) (hj : 1 ≤ j)
    (H : ∀ j : ℕ, 1 ≤ j → ∃ A r, get = .ok A ∧ o.getLMoment (distStr [q] b) j lw = .ok r ∧ r.shape = g.shapeOf b ∧
      ∀ c, g.Has c → ∀ π : ℕ → ℝ, (∀ i < g.bins q, A.get (i :: coords b c) = .fin (π i)) →
        r.get (coords b c) = .fin (lmoment (g.bins q) (g.edge q) π j)) :
    ∃ A r, get = .ok A ∧ o.getNormalisedLMoment (distStr [q] b) j lw = .ok r ∧ r.shape = g.shapeOf b ∧
      ∀ c, g.Has c → ∀ π : ℕ → ℝ, (∀ i < g.bins q, A.get (i :: coords b c) = .fin (π i)) →
        IsNormalised (r.get (coords b c)) (g.bins q) (g.edge q) π j := by
  obtain ⟨A, l, h1, h2, h3, h4⟩ := H j hj
  obtain ⟨A', d, h1', h2', h3', h4'⟩ := H 2 (by omega)
  obtain rfl : A = A' := Except.ok.inj (h1.symm.trans h1')
  obtain ⟨r, h5, h6, h7⟩ := normalised_of h2' h2 (by rw [h3, h3'])
  refine ⟨A, r, h1, h5, by rw [h6, h3], fun c hc π hπ => isNormalised (edges_increasing hg q) ?_⟩
  rw [h7 _ (by rw [h3]; exact inBox_coords hc b), h4 c hc π hπ, h4' c hc π hπ]

/-! ### The property -/

section
variable {cube : IFUCube} {stored : Arr Num} {ρ : Cell → ℝ}

/-- **C72, plain components.** The normalised L-moment of order `j` (3: L-skewness, 4: L-kurtosis) of age, velocity or metallicity, given
anything, is the `j`-th L-moment divided by the L-dispersion of the distribution that `get_p` returns; the L-dispersion is positive,
so that it is a number wherever there are stars. -/
theorem C72_plain_partial (h : BaseIs cube stored g ρ L) (hlw : lw = true → 0 < totalLight g L (massP g ρ))
    (q : Char) (hq : q ∈ ['t','v','z']) (b : PyStr) (hb : ValidPair [q] b) (j : ℕ) (hj : 1 ≤ j) :
    ∃ r, (obj (baseSelf cube stored)).getNormalisedLMoment (distStr [q] b) j lw = .ok r ∧ r.shape = g.shapeOf b ∧
      ∀ c, g.Has c → g.condWt (wtdP g L (massP g ρ) lw) b c ≠ 0 →
        IsNormalised (r.get (coords b c)) (g.bins q) (g.edge q) (g.binProb (wtdP g L (massP g ρ) lw) q b c) j ∧
        ((b = [] → lw = false → g.sumCells (massP g ρ) = 1) → ∃ x : ℝ, r.get (coords b c) = .fin x) := by
  obtain ⟨l, h1, h2, h3⟩ := C20_l_moments h hlw q hq b hb j hj
  obtain ⟨d, h1', h2', h3'⟩ := C20_l_moments h hlw q hq b hb 2 (by norm_num)
  obtain ⟨r, h5, h6, h7⟩ := normalised_of h1' h1 (by rw [h2, h2'])
  refine ⟨r, h5, by rw [h6, h2], fun c hc h0 => ?_⟩
  have hI : IsNormalised (r.get (coords b c)) (g.bins q) (g.edge q) (g.binProb (wtdP g L (massP g ρ) lw) q b c) j := by
    refine isNormalised (edges_increasing h.proper q) ?_
    rw [h7 _ (by rw [h2]; exact inBox_coords hc b), h3 c hc, h3' c hc]
    beta_reduce
    rw [if_neg h0, if_neg h0]
  exact ⟨hI, fun hN => ⟨_, (hI.2 (fun i _ => binProb_nonneg (fun d hd => h.wtd_nonneg lw hd) q b c i)
    (cdf_total h0 fun e => total_one hlw (hN e))).2⟩⟩

/-- **C72, units.** Normalised L-moments do not depend on the units: scaling the axis of `q` does not change them. -/
theorem C72_units {cube' : IFUCube} {stored' : Arr Num} {g' : Grid} {ρ' : Cell → ℝ} {L' : ℕ → ℕ → ℝ}
    (h : BaseIs cube stored g ρ L) (hlw : lw = true → 0 < totalLight g L (massP g ρ))
    (h' : BaseIs cube' stored' g' ρ' L') (hlw' : lw = true → 0 < totalLight g' L' (massP g' ρ'))
    (q : Char) (hq : q ∈ ['t','v','z']) (b : PyStr) (hb : ValidPair [q] b) (k : ℝ) (hk : k ≠ 0)
    (hR : Regridded g g' (wtdP g L (massP g ρ) lw) (wtdP g' L' (massP g' ρ') lw) q k 0)
    (hN : b = [] → lw = false → g.sumCells (massP g ρ) = 1) (j : ℕ) (hj : 1 ≤ j) :
    ∃ r r', (obj (baseSelf cube stored)).getNormalisedLMoment (distStr [q] b) j lw = .ok r ∧
      (obj (baseSelf cube' stored')).getNormalisedLMoment (distStr [q] b) j lw = .ok r' ∧ r'.shape = r.shape ∧
      ∀ c, g.Has c → g.condWt (wtdP g L (massP g ρ) lw) b c ≠ 0 → r'.get (coords b c) = r.get (coords b c) := by
  obtain ⟨r, h1, h2, h3⟩ := C72_plain_partial h hlw q hq b hb j hj
  obtain ⟨r', h1', h2', h3'⟩ := C72_plain_partial h' hlw' q hq b hb j hj
  refine ⟨r, r', h1, h1', by rw [h2, h2', hR.shapeOf], fun c hc h0 => ?_⟩
  have hI := ((h3 c hc h0).1.2 (fun i _ => binProb_nonneg (fun d hd => h.wtd_nonneg lw hd) q b c i)
    (cdf_total h0 fun e => total_one hlw (hN e)))
  have e' := (h3' c ((hR.has c).2 hc) (by rw [hR.condWt]; exact h0)).1.1
  have hl : ∀ j, lmoment (g'.bins q) (g'.edge q) (g'.binProb (wtdP g' L' (massP g' ρ') lw) q b c) j =
      k * lmoment (g.bins q) (g.edge q) (g.binProb (wtdP g L (massP g ρ) lw) q b c) j := fun j => by
    rw [hR.bins, lmoment_congr (e' := fun i => k * g.edge q i + 0) (p' := g.binProb (wtdP g L (massP g ρ) lw) q b c) hR.edge
      (fun i _ => hR.binProb b c i), lmoment_affine]
    ring
  rw [hl, hl, Num.fin_div _ _ (mul_ne_zero hk hI.1.ne'), mul_div_mul_left _ _ hk] at e'
  rw [e', hI.2]

/-- **C72, symmetry.** A distribution symmetric about zero has no L-skewness, and no normalised L-moment of any odd order. -/
theorem C72_symmetric (h : BaseIs cube stored g ρ L) (hlw : lw = true → 0 < totalLight g L (massP g ρ))
    (q : Char) (hq : q ∈ ['t','v','z']) (b : PyStr) (hb : ValidPair [q] b)
    (hN : b = [] → lw = false → g.sumCells (massP g ρ) = 1) (m : ℕ)
    (hedge : ∀ i ≤ g.bins q, g.edge q i = -g.edge q (g.bins q - i)) :
    ∃ r, (obj (baseSelf cube stored)).getNormalisedLMoment (distStr [q] b) (2 * m + 1 : ℕ) lw = .ok r ∧ r.shape = g.shapeOf b ∧
      ∀ c, g.Has c → g.condWt (wtdP g L (massP g ρ) lw) b c ≠ 0 →
        (∀ i < g.bins q, g.binProb (wtdP g L (massP g ρ) lw) q b c i = g.binProb (wtdP g L (massP g ρ) lw) q b c (g.bins q - 1 - i)) →
        r.get (coords b c) = .fin 0 := by
  obtain ⟨r, h1, h2, h3⟩ := C72_plain_partial h hlw q hq b hb (2 * m + 1) (by omega)
  refine ⟨r, h1, h2, fun c hc h0 hsym => ?_⟩
  have ht := cdf_total (q := q) h0 fun e => total_one hlw (hN e)
  have hI := ((h3 c hc h0).1.2 (fun i _ => binProb_nonneg (fun d hd => h.wtd_nonneg lw hd) q b c i) ht)
  have hz := lmoment_reflect hedge hsym ht (2 * m + 1) (by omega)
  rw [pow_succ, pow_mul] at hz
  norm_num at hz
  rw [hI.2, show lmoment (g.bins q) (g.edge q) (g.binProb (wtdP g L (massP g ρ) lw) q b c) (2 * m + 1) = 0 by linarith, zero_div]

end

/-- **C72, parametric components.** As for plain components, for the distribution that `get_p` returns. (That of the velocity need not
sum to one.) -/
theorem C72_parametric {p : Param} {m : Ingredients} (h : ParamIs p g m L) (hl : lw = true → (m.pop g).Shines g L)
    (k : Char) (hk : k ∈ ['t','v','z']) (b : PyStr) (hb : ValidPair [k] b) (j : ℕ) (hj : 1 ≤ j) :
    ∃ A r, getP p.self (distStr [k] b) false lw = .ok A ∧ (obj p.self).getNormalisedLMoment (distStr [k] b) j lw = .ok r ∧
      r.shape = g.shapeOf b ∧ ∀ c, g.Has c → ∀ π : ℕ → ℝ, (∀ i < g.bins k, A.get (i :: coords b c) = .fin (π i)) →
        IsNormalised (r.get (coords b c)) (g.bins k) (g.edge k) π j :=
  normalised_tab h.proper j hj fun j hj => C68_l_moments_of_distribution h hl k hk b hb j hj

/-- **C72, mixtures.** As for plain components, for the distribution that `get_p` returns. -/
theorem C72_mixture {m : Mix} {n : ℕ} {ω : ℕ → ℝ} {pop : ℕ → Pop} (h : MixOf m g n ω pop L)
    (hl : lw = true → ∀ i < n, (pop i).Shines g L) (k : Char) (hk : k ∈ ['t','v','z']) (b : PyStr) (hb : ValidPair [k] b) (j : ℕ)
    (hj : 1 ≤ j) :
    ∃ A r, Mix.getP m (distStr [k] b) true false lw = .ok A ∧ (Mix.obj m).getNormalisedLMoment (distStr [k] b) j lw = .ok r ∧
      r.shape = g.shapeOf b ∧ ∀ c, g.Has c → ∀ π : ℕ → ℝ, (∀ i < g.bins k, A.get (i :: coords b c) = .fin (π i)) →
        IsNormalised (r.get (coords b c)) (g.bins k) (g.edge k) π j :=
  normalised_tab h.proper j hj fun j hj => C69_l_moments_of_distribution h hl k hk b hb j hj

/-- **C72, excess.** The excess L-moments of a component are its normalised L-moments minus those of the normal law; the excess L-kurtosis
is that of order four. -/
theorem C72_excess (o : Obj) (w : PyStr) (ppf : ℝ → ℝ) (j : ℤ) (n : Num) (hn : Obj.normalisedLMomentNormal ppf j = .ok n) (r : Arr Num)
    (hr : o.getNormalisedLMoment w j lw = .ok r) :
    ∃ x, o.getExcessLMoment ppf w j lw = .ok x ∧ (j = 4 → o.getExcessLKurtosis ppf w lw = .ok x) ∧ x.shape = r.shape ∧
      ∀ i, InBox r.shape i → x.get i = r.get i - n := by
  obtain ⟨x, h1, h2, h3⟩ := bop_scalar_right (· - ·) r n
  have h : o.getExcessLMoment ppf w j lw = .ok x := by
    unfold Obj.getExcessLMoment
    rw [hr, hn]
    exact h1
  exact ⟨x, h, fun e => by subst e; exact h, h2, h3⟩

/-- **C72, skewness and kurtosis** of a plain component, spelled out. -/
theorem C72_skewness_kurtosis {cube : IFUCube} {stored : Arr Num} {ρ : Cell → ℝ} (h : BaseIs cube stored g ρ L)
    (hlw : lw = true → 0 < totalLight g L (massP g ρ)) (q : Char) (hq : q ∈ ['t','v','z']) (b : PyStr) (hb : ValidPair [q] b)
    (hN : b = [] → lw = false → g.sumCells (massP g ρ) = 1) :
    ∃ r3 r4, (obj (baseSelf cube stored)).getLSkewness (distStr [q] b) lw = .ok r3 ∧
      (obj (baseSelf cube stored)).getLKurtosis (distStr [q] b) lw = .ok r4 ∧ r3.shape = g.shapeOf b ∧ r4.shape = g.shapeOf b ∧
      ∀ c, g.Has c → g.condWt (wtdP g L (massP g ρ) lw) b c ≠ 0 →
        let lam := lmoment (g.bins q) (g.edge q) (g.binProb (wtdP g L (massP g ρ) lw) q b c)
        0 < lam 2 ∧ r3.get (coords b c) = .fin (lam 3 / lam 2) ∧ r4.get (coords b c) = .fin (lam 4 / lam 2) := by
  obtain ⟨r3, h1, h2, h3⟩ := C72_plain_partial h hlw q hq b hb 3 (by norm_num)
  obtain ⟨r4, h1', h2', h3'⟩ := C72_plain_partial h hlw q hq b hb 4 (by norm_num)
  refine ⟨r3, r4, h1, h1', h2, h2', fun c hc h0 => ?_⟩
  have hp : ∀ i < g.bins q, 0 ≤ g.binProb (wtdP g L (massP g ρ) lw) q b c i :=
    fun i _ => binProb_nonneg (fun d hd => h.wtd_nonneg lw hd) q b c i
  have ht := cdf_total (q := q) h0 fun e => total_one hlw (hN e)
  have a := (h3 c hc h0).1.2 hp ht
  have b := (h3' c hc h0).1.2 hp ht
  exact ⟨a.1, a.2, b.2⟩

/-! ### Where the code does not do what it should -/

/-- **C72, refuted.** Hosking's L-skewness lies between -1 and 1. The returned L-skewness has no bounds: a component with one velocity bin
from `s - 1` to `s + 1` has L-skewness `s`. -/
theorem C72_bound_fails (s : ℝ) : ∃ cube stored r, IFUCube.init demoSSPs 1 1 1 (-1, 1) (0, 3) (s - 1, s + 1) = .ok cube ∧
    Component.init cube stored = .ok stored ∧ (obj (baseSelf cube stored)).getLSkewness (distStr ['v'] ['t']) false = .ok r ∧
    r.get [0] = .fin s := by
  have hv : (s - 1, s + 1).1 < (s - 1, s + 1).2 := by simp; linarith
  obtain ⟨cube, h1, hB⟩ := uniformBase 1 1 1 one_pos one_pos one_pos (s - 1, s + 1) hv
  obtain ⟨r, hr, -, hr2⟩ := C72_plain_partial (lw := false) hB (by simp) 'v' (by decide) ['t'] (by decide) 3 (by norm_num)
  refine ⟨cube, uniformStored 1 1 1, r, h1, (C04_constructor_shape hB.cubeIs hB.proper _).1 rfl, hr, ?_⟩
  have hc : (uniformGrid 1 1 1 (s - 1, s + 1)).Has ⟨0, 0, 0, 0, 0⟩ := by simp [Grid.Has, uniformGrid, cubeGrid]
  have hw := uniform_weight 1 1 1 one_pos one_pos one_pos (s - 1, s + 1) hv ['t'] hc
  have e := (hr2 _ hc hw).1.1
  have ht := cdf_total (q := 'v') hw (by simp)
  have hb : (uniformGrid 1 1 1 (s - 1, s + 1)).bins 'v' = 1 := rfl
  rw [hb] at e ht
  have hc0 : ∀ p : ℕ → ℝ, cdf p 0 = 0 := fun p => by simp [cdf]
  have hp := ht
  simp only [cdf, Finset.sum_range_one] at hp
  rw [lmoment, Finset.sum_range_one, lmoment, Finset.sum_range_one, zero_add, hc0, ht, hp] at e
  have e0 : (uniformGrid 1 1 1 (s - 1, s + 1)).edge 'v' 0 = s - 1 := by simp [Grid.edge, uniformGrid, cubeGrid, evenEdges]
  have e1 : (uniformGrid 1 1 1 (s - 1, s + 1)).edge 'v' 1 = s + 1 := by simp [Grid.edge, uniformGrid, cubeGrid, evenEdges]
  rw [e0, e1] at e
  have e' : r.get [0] = _ := e
  rw [e', Num.fin_div]
  · norm_num [legendreP]
    rw [show (1 - s + (s + 1)) / 2 = 1 by ring, div_one]
  · norm_num [legendreP]
    ring_nf
    norm_num

/-- **C72, refuted.** The L-dispersion of the velocity of a parametric component can be negative (a dispersion is not): stars outside of the
velocity range are missing from the distribution, which is not normalised again. Half of the stars at 250 and half at 1000, on a grid
from -100 to 300. -/
theorem C72_dispersion_negative : ∃ p g m L, ParamIs p g m L ∧ ∃ d, (obj p.self).getLDispersion ['v'] false = .ok d ∧
    ∃ x : ℝ, d.get [] = .fin x ∧ x < -30 := by
  obtain ⟨p, h, hf⟩ := flatDisk_exists (fun t => if t = 0 then 250 else 1000)
  have hc : demoGrid.Has ⟨0, 0, 0, 0, 0⟩ := by
    refine ⟨?_, ?_, ?_, ?_, ?_⟩ <;> norm_num [demoGrid, cubeGrid]
  obtain ⟨A, l, hA, hl, -, hv⟩ := C68_l_moments_of_distribution (lw := false) h (by simp) 'v' (by decide) [] (by decide) 2 (by norm_num)
  obtain ⟨A', hA', -, hA2⟩ := C32_marginals h false false (by simp) ['v'] (by decide)
  obtain rfl : A = A' := by
    have : getP p.self ['v'] false false = .ok A := hA
    rw [this] at hA'
    exact Except.ok.inj hA'
  refine ⟨p, demoGrid, _, demoL, h, l, hl, ?_⟩
  let N : ℝ → ℕ → ℝ := fun μ i => (normal μ (1 / 10)).real (Set.Ioc (-100 + (i : ℕ) * 100) (-100 + ((i : ℕ) + 1) * 100))
  have e : ∀ i < demoGrid.bins 'v', A.get (i :: coords [] ⟨0, 0, 0, 0, 0⟩) = .fin ((N 250 i + N 1000 i) / 2) := by
    intro i hi
    have hi4 : i < 4 := hi
    have := hA2 ⟨0, i, 0, 0, 0⟩ ⟨hc.1, hi4, hc.2.2⟩
    rw [show A.get (i :: coords [] ⟨0, 0, 0, 0, 0⟩) = _ from this]
    congr 1
    rw [if_neg (by simp), div_one]
    unfold Ingredients.marginal
    rw [if_pos (by decide), flat_joint_sum (μ := fun t => if t = 0 then 250 else 1000) (F := fun _ v => if v = i then 1 else 0)]
    · interval_cases i <;> simp [Fin.sum_univ_four, N] <;> norm_num
    · intro d _
      have : (coords ['v'] d = coords ['v'] ⟨0, i, 0, 0, 0⟩) ↔ d.v = i := by simp [coords, coord1]
      simp only [this, Ingredients.weight, Bool.false_eq_true, if_false]
      split <;> simp
  refine ⟨_, hv _ hc _ e, ?_⟩
  have hedge : ∀ i : ℕ, demoGrid.edge 'v' i = -100 + i * 100 := fun i => by
    show demoGrid.v i = _
    norm_num [demoGrid, cubeGrid, evenEdges]
  have n0 : ∀ μ i, 0 ≤ N μ i := fun μ i => measureReal_nonneg
  have f0 : ∀ i, i < 3 → N 250 i ≤ 1 / 100 := fun i hi => by
    have := normal_far (μ := 250) (σ := 1 / 10) (a := -100 + (i : ℕ) * 100) (b := -100 + ((i : ℕ) + 1) * 100)
      (by interval_cases i <;> norm_num)
    refine this.trans (by norm_num)
  have f1 : ∀ i, i < 4 → N 1000 i ≤ 1 / 100 := fun i hi => by
    have := normal_far (μ := 1000) (σ := 1 / 10) (a := -100 + (i : ℕ) * 100) (b := -100 + ((i : ℕ) + 1) * 100)
      (by interval_cases i <;> norm_num)
    refine this.trans (by norm_num)
  have g0 : 99 / 100 ≤ N 250 3 := by
    have := normal_near (μ := 250) (σ := 1 / 10) (a := -100 + ((3 : ℕ) : ℝ) * 100) (b := -100 + (((3 : ℕ) : ℝ) + 1) * 100)
      (by norm_num) (by norm_num)
    refine le_trans (by norm_num) this
  have g1 : N 250 3 ≤ 1 := measureReal_le_one
  obtain ⟨p0, q0⟩ : 0 ≤ (N 250 0 + N 1000 0) / 2 ∧ (N 250 0 + N 1000 0) / 2 ≤ 1 / 100 := by
    have := n0 250 0; have := n0 1000 0; have := f0 0 (by norm_num); have := f1 0 (by norm_num); constructor <;> linarith
  obtain ⟨p1, q1⟩ : 0 ≤ (N 250 1 + N 1000 1) / 2 ∧ (N 250 1 + N 1000 1) / 2 ≤ 1 / 100 := by
    have := n0 250 1; have := n0 1000 1; have := f0 1 (by norm_num); have := f1 1 (by norm_num); constructor <;> linarith
  obtain ⟨p2, q2⟩ : 0 ≤ (N 250 2 + N 1000 2) / 2 ∧ (N 250 2 + N 1000 2) / 2 ≤ 1 / 100 := by
    have := n0 250 2; have := n0 1000 2; have := f0 2 (by norm_num); have := f1 2 (by norm_num); constructor <;> linarith
  obtain ⟨p3, q3⟩ : 49 / 100 ≤ (N 250 3 + N 1000 3) / 2 ∧ (N 250 3 + N 1000 3) / 2 ≤ 51 / 100 := by
    have := n0 1000 3; have := f1 3 (by norm_num); constructor <;> linarith
  show lmoment 4 _ _ 2 < -30
  generalize hπ : (fun i => (N 250 i + N 1000 i) / 2) = π
  have h0 : (N 250 0 + N 1000 0) / 2 = π 0 := congrFun hπ 0
  have h1 : (N 250 1 + N 1000 1) / 2 = π 1 := congrFun hπ 1
  have h2 : (N 250 2 + N 1000 2) / 2 = π 2 := congrFun hπ 2
  have h3 : (N 250 3 + N 1000 3) / 2 = π 3 := congrFun hπ 3
  rw [h0] at p0 q0
  rw [h1] at p1 q1
  rw [h2] at p2 q2
  rw [h3] at p3 q3
  have ex : lmoment 4 (demoGrid.edge 'v') π 2 = 50 * π 0 + 50 * (2 * (π 0 + π 1) - 1) * π 1 +
      (50 * (2 * (π 0 + π 1) - 1) + 100 * (2 * (π 0 + π 1 + π 2) - 1)) * π 2 +
      (100 * (2 * (π 0 + π 1 + π 2) - 1) + 150 * (2 * (π 0 + π 1 + π 2 + π 3) - 1)) * π 3 := by
    simp only [lmoment, cdf, Finset.sum_range_succ, Finset.sum_range_zero, hedge, show (2 : ℕ) - 1 = 1 from rfl, legendreP]
    push_cast
    ring
  rw [ex]
  have b1 : 50 * (2 * (π 0 + π 1) - 1) * π 1 ≤ 0 := mul_nonpos_of_nonpos_of_nonneg (by linarith) p1
  have b2 : (50 * (2 * (π 0 + π 1) - 1) + 100 * (2 * (π 0 + π 1 + π 2) - 1)) * π 2 ≤ 0 :=
    mul_nonpos_of_nonpos_of_nonneg (by linarith) p2
  have b3 : 100 * (2 * (π 0 + π 1 + π 2) - 1) + 150 * (2 * (π 0 + π 1 + π 2 + π 3) - 1) ≤ -70 := by linarith
  have b4 : (100 * (2 * (π 0 + π 1 + π 2) - 1) + 150 * (2 * (π 0 + π 1 + π 2 + π 3) - 1)) * π 3 ≤ -70 * π 3 :=
    mul_le_mul_of_nonneg_right b3 (by linarith)
  linarith

/-! ### The hypotheses can be met -/

theorem sumCells_flip (g : Grid) (f : Cell → ℝ) : g.sumCells f = g.sumCells (fun d => f { d with v := g.nv - 1 - d.v }) := by
  unfold Grid.sumCells
  refine Finset.sum_congr rfl fun t _ => ?_
  rw [← Equiv.sum_comp Fin.revPerm]
  refine Finset.sum_congr rfl fun v _ => Finset.sum_congr rfl fun x _ => Finset.sum_congr rfl fun y _ => Finset.sum_congr rfl fun z _ => ?_
  have : ((Fin.revPerm v : Fin g.nv) : ℕ) = g.nv - 1 - v := by
    rw [Fin.revPerm_apply, Fin.val_rev]
    omega
  rw [this]

theorem sumCells_same {g : Grid} {f h : Cell → ℝ} (H : ∀ d, g.Has d → f d = h d) : g.sumCells f = g.sumCells h :=
  Finset.sum_congr rfl fun t _ => Finset.sum_congr rfl fun v _ => Finset.sum_congr rfl fun x _ => Finset.sum_congr rfl fun y _ =>
    Finset.sum_congr rfl fun z _ => H _ ⟨t.2, v.2, x.2, y.2, z.2⟩

/-- Any number of velocity bins, symmetric about zero, equally filled. -/
example (nv : ℕ) (hv : 0 < nv) : ∃ cube r, IFUCube.init demoSSPs 2 3 nv (-1, 1) (0, 3) (-1, 1) = .ok cube ∧
    (obj (baseSelf cube (uniformStored 2 3 nv))).getLSkewness (distStr ['v'] ['t']) false = .ok r ∧ r.get [1] = .fin 0 := by
  obtain ⟨cube, h1, hB⟩ := uniformBase 2 3 nv two_pos three_pos hv (-1, 1) (by norm_num)
  have hc : (uniformGrid 2 3 nv (-1, 1)).Has ⟨1, 0, 0, 0, 0⟩ := by simpa [Grid.Has, uniformGrid, cubeGrid] using hv
  have hn : (nv : ℝ) ≠ 0 := by exact_mod_cast hv.ne'
  obtain ⟨r, hr, -, hr2⟩ := C72_symmetric (lw := false) hB (by simp) 'v' (by decide) ['t'] (by decide) (by simp) 1 (by
    intro i hi
    have hi2 : i ≤ nv := hi
    show evenEdges (-1, 1) nv i = -evenEdges (-1, 1) nv (nv - i)
    unfold evenEdges
    rw [Nat.cast_sub hi2]
    field_simp
    ring)
  refine ⟨cube, r, h1, hr, hr2 _ hc (uniform_weight 2 3 nv two_pos three_pos hv (-1, 1) (by norm_num) ['t'] hc) fun i hi => ?_⟩
  have hi2 : i < nv := hi
  have hwd : ∀ k, width (uniformGrid 2 3 nv (-1, 1)).v k = 2 / nv := fun k => by
    show evenEdges (-1, 1) nv (k + 1) - evenEdges (-1, 1) nv k = _
    unfold evenEdges
    push_cast
    ring
  unfold Grid.binProb Grid.marg
  rw [sumCells_flip]
  refine congrArg₂ (· / ·) (sumCells_same fun d hd => ?_) rfl
  have hdv : d.v < nv := hd.2.1
  show (if coords ['t'] d = coords ['t'] ⟨1, 0, 0, 0, 0⟩ then (if nv - 1 - d.v = i then _ else 0) else 0) =
    (if coords ['t'] d = coords ['t'] ⟨1, 0, 0, 0, 0⟩ then (if d.v = nv - 1 - i then _ else 0) else 0)
  have hiff : nv - 1 - d.v = i ↔ d.v = nv - 1 - i := by omega
  have hm : massP (uniformGrid 2 3 nv (-1, 1)) (fun _ => 1) { d with v := nv - 1 - d.v } =
      massP (uniformGrid 2 3 nv (-1, 1)) (fun _ => 1) d := by simp only [massP, Grid.cellVolume, hwd]
  rw [if_congr hiff rfl rfl]
  refine if_congr Iff.rfl (if_congr Iff.rfl ?_ rfl) rfl
  exact hm

end PKM
