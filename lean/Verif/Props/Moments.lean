import Verif.StdMoments
import Verif.Props.Strings

/-!
# C13–C19: means, moments, covariances and correlations of a plain component

Notation: `P = wtdP g L (massP g ρ) lw` is the probability of the cells, mass- (`lw = false`) or
light-weighted (`lw = true`); the latter needs some light (`hlw`).  The distribution string is
`distStr a b`: `a` if `b` is empty, else `a_b`.  A quantity `q` is one of `t, v, x, y, z`; the
string `x` of the API covers the quantities `x` and `y`, whose results are the two entries of a new
first axis.  `Ex g P b c φ` is the expectation of `φ` given `b` at cell `c`, as a real number.
-/

open scoped Classical

noncomputable section

namespace PKM
open Np Component

variable {cube : IFUCube} {stored : Arr Num} {g : Grid} {ρ : Cell → ℝ} {L : ℕ → ℕ → ℝ} {lw : Bool}

/-! ### C13 -/

/-- `get_mean` of every one-variable string is the probability-weighted sum of bin centres. -/
theorem C13_means (h : BaseIs cube stored g ρ L) (hlw : lw = true → 0 < totalLight g L (massP g ρ))
    (q : Char) (hq : q ∈ ['t','v','x','y','z']) (b : PyStr) (hb : ValidPair (varOf q) b) :
    ∃ r, getMean (baseSelf cube stored) (distStr (varOf q) b) lw = .ok r ∧
      r.shape = compShape (varOf q) ++ g.shapeOf b ∧
      ∀ c, g.Has c → r.get (compIdx q ++ coords b c) =
        g.expect (wtdP g L (massP g ρ) lw) (g.value q) b c := by
  obtain ⟨h1, h2, -⟩ := quantity_facts hq
  obtain ⟨r, hr, hr'⟩ := (h.std hlw b).mean _ hb h1
  exact ⟨r, hr, hr'.1, fun c hc => hr'.2 q h2 c hc⟩

/-- The quantities and conditioners to which `C13_means` applies are those of the 32 one-variable
strings: 4 marginals and 28 conditionals. -/
theorem C13_count : ((['t','v','x','z'] : List Char).filter (fun q => ValidPair (varOf q) [])).length = 4 ∧
    (((['t','v','x','z'] : List Char) ×ˢ marginals).filter
      (fun p => ValidPair (varOf p.1) p.2)).length = 28 := by
  decide +kernel

/-- The mean of more than one variable is rejected, whatever the component. -/
theorem C13_rejects (s : Self) (w : PyStr) (hw : (headVar w).length ≠ 1) :
    getMean s w lw = .error .assertionError ∧
    (∀ j, getCentralMoment s w j lw = .error .assertionError) ∧
    (∀ j mu, getNoncentralMoment s w j mu lw = .error .assertionError) := by
  simp [getMean, getCentralMoment, getNoncentralMoment, hw]

/-! ### C14 -/

theorem edges_increasing (hg : g.Proper) (q : Char) : ∀ i < g.bins q, g.edge q i < g.edge q (i + 1) := by
  have := hg.t; have := hg.v; have := hg.x; have := hg.y; have := hg.z
  unfold Grid.bins Grid.edge
  split_ifs <;> assumption

theorem centres_mono {n : ℕ} {e : ℕ → ℝ} (he : ∀ i < n, e i < e (i + 1)) {i j : ℕ} (hij : i ≤ j) (hj : j < n) :
    centre e i ≤ centre e j := by
  have : ∀ k, ∀ i, i + k < n → e i ≤ e (i + k) := by
    intro k
    induction k with
    | zero => intro i _; simp
    | succ k ih => intro i hk; exact (ih i (by omega)).trans (he (i + k) (by omega)).le
  obtain ⟨k, rfl⟩ := Nat.exists_eq_add_of_le hij
  have h1 := this k i hj
  have h2 : e (i + 1) ≤ e (i + k + 1) := by
    rcases Nat.eq_zero_or_pos k with rfl | hk
    · simp
    · have := this (k - 1) (i + 1) (by omega)
      have e2 : i + 1 + (k - 1) = i + k := by omega
      rw [e2] at this
      exact this.trans (he _ hj).le
  unfold centre; linarith

theorem value_range (hg : g.Proper) {q : Char} (hq : q ∈ ['t','v','x','y','z']) {c : Cell} (hc : g.Has c) :
    centre (g.edge q) 0 ≤ g.value q c ∧ g.value q c ≤ centre (g.edge q) (g.bins q - 1) := by
  have key : ∃ i < g.bins q, g.value q c = centre (g.edge q) i := by
    obtain ⟨h1, h2, h3, h4, h5⟩ := hc
    simp only [List.mem_cons, List.not_mem_nil, or_false] at hq
    rcases hq with rfl | rfl | rfl | rfl | rfl
    · exact ⟨c.t, h1, rfl⟩
    · exact ⟨c.v, h2, rfl⟩
    · exact ⟨c.x, h3, rfl⟩
    · exact ⟨c.y, h4, rfl⟩
    · exact ⟨c.z, h5, rfl⟩
  obtain ⟨i, hi, e⟩ := key
  rw [e]
  exact ⟨centres_mono (edges_increasing hg q) (Nat.zero_le _) hi,
    centres_mono (edges_increasing hg q) (by omega) (by omega)⟩

theorem total_one (hlw : lw = true → 0 < totalLight g L (massP g ρ))
    (hN : lw = false → g.sumCells (massP g ρ) = 1) : g.sumCells (wtdP g L (massP g ρ) lw) = 1 := by
  cases lw with
  | false => simpa [wtdP] using hN rfl
  | true => simpa [wtdP] using C10_total (hlw rfl)

/-- The real expectation is squeezed between bounds of the integrand. -/
theorem Ex_mem {P φ : Cell → ℝ} {b : PyStr} {c : Cell} (hP : ∀ d, g.Has d → 0 ≤ P d)
    (h0 : g.condWt P b c ≠ 0) (hN : b = [] → g.sumCells P = 1) {lo hi : ℝ}
    (hφ : ∀ d, g.Has d → lo ≤ φ d ∧ φ d ≤ hi) : lo ≤ Ex g P b c φ ∧ Ex g P b c φ ≤ hi := by
  have hE := pos_Ex hP h0 hN
  constructor
  · have h1 := Ex_nonneg (b := b) (c := c) hP (φ := fun d => φ d - lo) fun d hd => by linarith [(hφ d hd).1]
    have := hE.sub φ (fun _ => lo)
    rw [hE.const] at this
    linarith
  · have h1 := Ex_nonneg (b := b) (c := c) hP (φ := fun d => hi - φ d) fun d hd => by linarith [(hφ d hd).2]
    have := hE.sub (fun _ => hi) φ
    rw [hE.const] at this
    linarith

/-- Every mean is nan (conditioner of probability zero) or lies between the first and the last bin
centre of its quantity. Marginal mass-weighted means need a normalised density. -/
theorem C14_mean_in_grid (h : BaseIs cube stored g ρ L)
    (hlw : lw = true → 0 < totalLight g L (massP g ρ))
    (q : Char) (hq : q ∈ ['t','v','x','y','z']) (b : PyStr) (hb : ValidPair (varOf q) b)
    (hN : b = [] → lw = false → g.sumCells (massP g ρ) = 1) :
    ∃ r, getMean (baseSelf cube stored) (distStr (varOf q) b) lw = .ok r ∧
      ∀ c, g.Has c → (r.get (compIdx q ++ coords b c) = .nan ∧ b ≠ [] ∧
          g.marg (wtdP g L (massP g ρ) lw) b c = 0) ∨
        ∃ x : ℝ, r.get (compIdx q ++ coords b c) = .fin x ∧
          centre (g.edge q) 0 ≤ x ∧ x ≤ centre (g.edge q) (g.bins q - 1) := by
  obtain ⟨r, hr, -, hg⟩ := C13_means h hlw q hq b hb
  refine ⟨r, hr, fun c hc => ?_⟩
  rw [hg c hc, expect_eq]
  by_cases h0 : g.condWt (wtdP g L (massP g ρ) lw) b c = 0
  · left
    rw [if_pos h0]
    unfold Grid.condWt at h0
    split at h0
    · norm_num at h0
    · exact ⟨rfl, by assumption, h0⟩
  · right
    rw [if_neg h0]
    exact ⟨_, rfl, Ex_mem (fun d hd => h.wtd_nonneg lw hd) h0 (fun e => total_one hlw (hN e))
      fun d hd => value_range h.proper hq hd⟩

/-! ### C15 -/

theorem marg_zero_mul {P φ : Cell → ℝ} (hP : ∀ d, g.Has d → 0 ≤ P d) {b : PyStr} {c : Cell}
    (h0 : g.marg P b c = 0) : g.marg (fun d => φ d * P d) b c = 0 := by
  have hz := fun d hd => sumCells_zero_term (f := fun d => if coords b d = coords b c then P d else 0)
    (fun d hd => by split_ifs; exacts [hP d hd, le_rfl]) h0 (c := d) hd
  have : g.marg (fun d => φ d * P d) b c = g.marg (fun _ => 0) b c := marg_congr fun d hd e => by
    have := hz d hd
    rw [if_pos e] at this
    rw [this, mul_zero]
  rw [this]; simp [Grid.marg, Grid.sumCells]

theorem condWt_pos_of_ne {P : Cell → ℝ} {b : PyStr} (hb : b ≠ []) (c : Cell) :
    g.condWt P b c = g.marg P b c := by simp [Grid.condWt, hb]

theorem conditionals_ne_nil {a b : PyStr} (h : (a, b) ∈ conditionals) : a ≠ [] ∧ b ≠ [] := by
  have : ∀ p ∈ conditionals, p.1 ≠ [] ∧ p.2 ≠ [] := by decide +kernel
  exact this _ h

/-- Law of total expectation: the average of `get_mean(a_b)` weighted by `get_p(b)` over all
conditioning cells is `get_mean(a)`. Entries of the conditional mean are numbers except where `get_p(b)` is
zero, and there they do not contribute. -/
theorem C15_total_expectation (h : BaseIs cube stored g ρ L)
    (hlw : lw = true → 0 < totalLight g L (massP g ρ))
    (q : Char) (hq : q ∈ ['t','v','x','y','z']) (b : PyStr) (hb : (varOf q, b) ∈ conditionals) :
    ∃ m p M, getMean (baseSelf cube stored) (condStr (varOf q) b) lw = .ok m ∧
      getP (baseSelf cube stored) b false lw = .ok p ∧
      getMean (baseSelf cube stored) (varOf q) lw = .ok M ∧
      (∀ c, g.Has c → p.get (coords b c) ≠ .fin 0 → ∃ x : ℝ, m.get (compIdx q ++ coords b c) = .fin x) ∧
      M.get (compIdx q) = .fin (sumShape (g.shapeOf b)
        (fun i => (m.get (compIdx q ++ i)).toReal * (p.get i).toReal)) := by
  obtain ⟨ha, hb0⟩ := conditionals_ne_nil hb
  obtain ⟨-, -, -, -, h5, -, -, h8, h9, -⟩ := conditionals_letters _ hb
  obtain ⟨m, hm, -, hm'⟩ := C13_means h hlw q hq b (.inr hb)
  obtain ⟨M, hM, -, hM'⟩ := C13_means h hlw q hq [] (.inl ⟨rfl, h8⟩)
  obtain ⟨p, hp, hp'⟩ := getP_marg_of_contract (h.contract lw hlw) false b h9
  rw [distStr, if_neg hb0] at hm
  rw [distStr, if_pos rfl] at hM
  have hP := fun d hd => h.wtd_nonneg lw (c := d) hd
  refine ⟨m, p, M, hm, hp, hM, fun c hc hne => ?_, ?_⟩
  · rw [hm' c hc, expect_eq, condWt_pos_of_ne hb0]
    rw [hp'.2 c hc] at hne
    rw [if_neg]
    · exact ⟨_, rfl⟩
    · intro e; exact hne (by simp [dvol, e])
  · have hf : ∀ w ∈ marginals, (PyStr.replaceX w).Nodup ∧
        (∀ ch ∈ PyStr.replaceX w, ch ∈ ['t','v','x','y','z']) := by decide +kernel
    have hc : g.Has ⟨0, 0, 0, 0, 0⟩ := ⟨h.proper.nt, h.proper.nv, h.proper.nx, h.proper.ny, h.proper.nz⟩
    obtain ⟨k1, k2⟩ := hf b h9
    rw [shapeOf_letters g h5, sumShape_letters g _ _ (g.marg (fun d => g.value q d *
      wtdP g L (massP g ρ) lw d) b) ⟨0, 0, 0, 0, 0⟩ k1 k2 hc, sumOver_marg_total g _ h9 hc]
    · have := hM' _ hc
      simp only [coords, List.flatMap_nil, List.append_nil] at this
      rw [this, expect_eq]
      simp [Grid.condWt, Ex, marg_nil]
    · intro d hd
      have e : (PyStr.replaceX b).map (coordL d) = coords b d := (coords_letters d h5).symm
      rw [e, hm' d hd, hp'.2 d hd, expect_eq, condWt_pos_of_ne hb0]
      simp only [dvol, Bool.false_eq_true, if_false, div_one]
      split_ifs with h0
      · simp only [Num.toReal, zero_mul]
        exact (marg_zero_mul hP h0).symm
      · simp only [Num.toReal, Ex, condWt_pos_of_ne hb0]
        exact div_mul_cancel₀ _ h0

/-! ### C16 -/

/-- `get_central_moment(w, j)` is the probability weighted sum of `(value - mean)^j`. -/
theorem C16_central_moments (h : BaseIs cube stored g ρ L)
    (hlw : lw = true → 0 < totalLight g L (massP g ρ))
    (q : Char) (hq : q ∈ ['t','v','x','y','z']) (b : PyStr) (hb : ValidPair (varOf q) b) (j : ℕ) :
    ∃ r, getCentralMoment (baseSelf cube stored) (distStr (varOf q) b) j lw = .ok r ∧
      r.shape = compShape (varOf q) ++ g.shapeOf b ∧
      ∀ c, g.Has c → r.get (compIdx q ++ coords b c) =
        g.expect (wtdP g L (massP g ρ) lw)
          (fun d => (g.value q d - g.mean (wtdP g L (massP g ρ) lw) q b d) ^ j) b c := by
  obtain ⟨h1, h2, -⟩ := quantity_facts hq
  obtain ⟨r, hr, hr'⟩ := (h.std hlw b).central _ hb h1 j
  exact ⟨r, hr, hr'.1, fun c hc => hr'.2 q h2 c hc⟩

/-- `get_noncentral_moment(w, j, mu)` is the probability weighted sum of `(value - mu)^j`, for every
array `mu` of centres of the right shape (its entries must be numbers where the conditioner is
possible). -/
theorem C16_noncentral_moments (h : BaseIs cube stored g ρ L)
    (hlw : lw = true → 0 < totalLight g L (massP g ρ))
    (q : Char) (hq : q ∈ ['t','v','x','y','z']) (b : PyStr) (hb : ValidPair (varOf q) b) (j : ℕ)
    (mu : Arr Num) (hs : mu.shape = compShape (varOf q) ++ g.shapeOf b)
    (hmu : ∀ q' ∈ PyStr.replaceX (varOf q), ∀ c, g.Has c →
      g.condWt (wtdP g L (massP g ρ) lw) b c ≠ 0 → ∃ x, mu.get (compIdx q' ++ coords b c) = .fin x) :
    ∃ r, getNoncentralMoment (baseSelf cube stored) (distStr (varOf q) b) j mu lw = .ok r ∧
      r.shape = compShape (varOf q) ++ g.shapeOf b ∧
      ∀ c, g.Has c → r.get (compIdx q ++ coords b c) =
        g.expect (wtdP g L (massP g ρ) lw)
          (fun d => (g.value q d - (mu.get (compIdx q ++ coords b d)).toReal) ^ j) b c := by
  obtain ⟨h1, h2, -⟩ := quantity_facts hq
  have hst := h.std hlw b
  obtain ⟨r, hr, hr'⟩ := getNoncentral_table h.proper h.cubeIs hb h1 rfl (hst.tab _ hb)
    (respects_condWt (g := g) (wtdP g L (massP g ρ) lw) b) (M := mu)
    (F := fun q c => mu.get (compIdx q ++ coords b c)) ⟨hs, fun _ _ _ _ => rfl⟩
    (μ := fun q d => (mu.get (compIdx q ++ coords b d)).toReal)
    (fun q d d' e => by simp only [e])
    (fun q' hq' d hd hne => by
      obtain ⟨x, hx⟩ := hmu q' hq' d hd hne
      simp only [hx, Num.toReal]) j
  exact ⟨r, hr, hr'.1, fun c hc => hr'.2 q h2 c hc⟩

/-- For a normalised distribution the central moment of order 0 is 1, of order 1 is 0, and of order 2
is `E[a^2] - E[a]^2 ≥ 0`; the dispersion is its square root. -/
theorem C16_variance (h : BaseIs cube stored g ρ L)
    (hlw : lw = true → 0 < totalLight g L (massP g ρ))
    (q : Char) (hq : q ∈ ['t','v','x','y','z']) (b : PyStr) (hb : ValidPair (varOf q) b)
    (hN : b = [] → lw = false → g.sumCells (massP g ρ) = 1) :
    ∃ r0 r1 V D, getCentralMoment (baseSelf cube stored) (distStr (varOf q) b) 0 lw = .ok r0 ∧
      getCentralMoment (baseSelf cube stored) (distStr (varOf q) b) 1 lw = .ok r1 ∧
      (obj (baseSelf cube stored)).getVariance (distStr (varOf q) b) lw = .ok V ∧
      (obj (baseSelf cube stored)).getDispersion (distStr (varOf q) b) lw = .ok D ∧
      ∀ c, g.Has c → g.condWt (wtdP g L (massP g ρ) lw) b c ≠ 0 →
        r0.get (compIdx q ++ coords b c) = .fin 1 ∧ r1.get (compIdx q ++ coords b c) = .fin 0 ∧
        ∃ v : ℝ, V.get (compIdx q ++ coords b c) = .fin v ∧ 0 ≤ v ∧
          v = Ex g (wtdP g L (massP g ρ) lw) b c (fun d => g.value q d ^ 2) -
            Ex g (wtdP g L (massP g ρ) lw) b c (g.value q) ^ 2 ∧
          D.get (compIdx q ++ coords b c) = .fin (Real.sqrt v) := by
  obtain ⟨h1, h2, -⟩ := quantity_facts hq
  have hst := h.std hlw b
  obtain ⟨r0, hr0, hr0'⟩ := hst.centralEx hb h1 0
  obtain ⟨r1, hr1, hr1'⟩ := hst.centralEx hb h1 1
  obtain ⟨V, hV, hV'⟩ := hst.centralEx hb h1 2
  refine ⟨r0, r1, V, Np.map Num.sqrt V, hr0, hr1, hV, ?_, fun c hc h0 => ?_⟩
  · simp only [Obj.getDispersion, hV, Py.ok_bind]
  · have hE := pos_Ex (fun d hd => h.wtd_nonneg lw hd) h0 (fun e => total_one hlw (hN e))
    have e0 := hr0'.2 q h2 c hc
    have e1 := hr1'.2 q h2 c hc
    have eV := hV'.2 q h2 c hc
    simp only [h0, if_false, pow_zero, pow_one] at e0 e1 eV
    rw [hE.one] at e0
    rw [hE.centred] at e1
    have hv : 0 ≤ Ex g (wtdP g L (massP g ρ) lw) b c
        (fun d => (g.value q d - Ex g (wtdP g L (massP g ρ) lw) b c (g.value q)) ^ 2) :=
      hE.nonneg _ fun d => sq_nonneg _
    refine ⟨e0, e1, _, eV, hv, ?_, ?_⟩
    · have := hE.cov (g.value q) (g.value q)
      simp only [← sq] at this
      exact this
    · simp only [Np.map, eV, Num.sqrt_fin hv]

/-! ### C17 -/

/-- Wherever the variance is positive: kurtosis ≥ 1 + skewness², excess kurtosis ≥ -2 and = kurtosis
- 3, and the normalised second moment is one. Where the variance is zero the normalised moments of
every order ≥ 1 are nan. -/
theorem C17_skewness_kurtosis (h : BaseIs cube stored g ρ L)
    (hlw : lw = true → 0 < totalLight g L (massP g ρ))
    (q : Char) (hq : q ∈ ['t','v','x','y','z']) (b : PyStr) (hb : ValidPair (varOf q) b)
    (hN : b = [] → lw = false → g.sumCells (massP g ρ) = 1) (f2 : ℝ) :
    ∃ V S K X N2, (obj (baseSelf cube stored)).getVariance (distStr (varOf q) b) lw = .ok V ∧
      (obj (baseSelf cube stored)).getSkewness (distStr (varOf q) b) lw = .ok S ∧
      (obj (baseSelf cube stored)).getKurtosis (distStr (varOf q) b) lw = .ok K ∧
      (obj (baseSelf cube stored)).getExcessKurtosis f2 (distStr (varOf q) b) lw = .ok X ∧
      (obj (baseSelf cube stored)).getNormalisedCentralMoment (distStr (varOf q) b) 2 lw = .ok N2 ∧
      ∀ c, g.Has c → g.condWt (wtdP g L (massP g ρ) lw) b c ≠ 0 →
        (V.get (compIdx q ++ coords b c) ≠ .fin 0 → ∃ s k : ℝ,
          S.get (compIdx q ++ coords b c) = .fin s ∧ K.get (compIdx q ++ coords b c) = .fin k ∧
          X.get (compIdx q ++ coords b c) = .fin (k - 3) ∧ 1 + s ^ 2 ≤ k ∧ -2 ≤ k - 3 ∧
          N2.get (compIdx q ++ coords b c) = .fin 1) ∧
        (V.get (compIdx q ++ coords b c) = .fin 0 → S.get (compIdx q ++ coords b c) = .nan ∧
          K.get (compIdx q ++ coords b c) = .nan ∧ X.get (compIdx q ++ coords b c) = .nan ∧
          N2.get (compIdx q ++ coords b c) = .nan) := by
  obtain ⟨h1, h2, h3⟩ := quantity_facts hq
  have hst := h.std hlw b
  obtain ⟨V, hV, hV'⟩ := hst.centralEx hb h1 2
  obtain ⟨M3, hM3, hM3'⟩ := hst.centralEx hb h1 3
  obtain ⟨M4, hM4, hM4'⟩ := hst.centralEx hb h1 4
  obtain ⟨S, hS, hS'⟩ := getNormalised_table h3 hM3 hM3' hV hV'
  obtain ⟨K, hK, hK'⟩ := getNormalised_table h3 hM4 hM4' hV hV'
  obtain ⟨N, hN2, hN2'⟩ := getNormalised_table h3 hV hV' hV hV'
  obtain ⟨X, hX, hX1, hX2⟩ := bop_scalar_right (· - ·) K (Num.fin (Obj.normalisedCentralMomentNormal f2 4))
  refine ⟨V, S, K, X, N, hV, hS, hK, ?_, hN2, fun c hc h0 => ?_⟩
  · simp only [Obj.getExcessKurtosis, Obj.getExcessCentralMoment, hK, Py.ok_bind, Np.sub, hX]
  · have hE := pos_Ex (fun d hd => h.wtd_nonneg lw hd) h0 (fun e => total_one hlw (hN e))
    have eV := hV'.2 q h2 c hc
    have eS := hS'.2 q h2 c hc
    have eK := hK'.2 q h2 c hc
    have eN := hN2'.2 q h2 c hc
    have eX := hX2 (compIdx q ++ coords b c) (by rw [hK'.1]; exact inBox_comp h3 h2 hc)
    have hn4 : Obj.normalisedCentralMomentNormal f2 4 = 3 := by
      norm_num [Obj.normalisedCentralMomentNormal, Nat.doubleFactorial]
    rw [hn4, eK] at eX
    simp only [h0, if_false] at eV eS eK eN eX
    have hc0 := hE.centred (g.value q)
    set μ := Ex g (wtdP g L (massP g ρ) lw) b c (g.value q) with hμ
    have hpe := hE.pearson (fun d => g.value q d - μ) hc0
    have hv : 0 ≤ Ex g (wtdP g L (massP g ρ) lw) b c (fun d => (g.value q d - μ) ^ 2) :=
      hE.nonneg _ fun d => sq_nonneg _
    have hz3 : Ex g (wtdP g L (massP g ρ) lw) b c (fun d => (g.value q d - μ) ^ 2) = 0 →
        Ex g (wtdP g L (massP g ρ) lw) b c (fun d => (g.value q d - μ) ^ 3) = 0 ∧
        Ex g (wtdP g L (massP g ρ) lw) b c (fun d => (g.value q d - μ) ^ 4) = 0 := by
      intro hz
      have k3 : ∀ Y : Cell → ℝ, Ex g (wtdP g L (massP g ρ) lw) b c (fun d => (g.value q d - μ) * Y d) = 0 := by
        intro Y
        have := hE.cauchy (fun d => g.value q d - μ) Y
        rw [hz, zero_mul] at this
        exact pow_eq_zero_iff (two_ne_zero) |>.1 (le_antisymm this (sq_nonneg _))
      constructor
      · have := k3 (fun d => (g.value q d - μ) ^ 2)
        rw [← this]; congr 1; funext d; ring
      · have := k3 (fun d => (g.value q d - μ) ^ 3)
        rw [← this]; congr 1; funext d; ring
    generalize Ex g (wtdP g L (massP g ρ) lw) b c (fun d => (g.value q d - μ) ^ 2) = v at *
    generalize Ex g (wtdP g L (massP g ρ) lw) b c (fun d => (g.value q d - μ) ^ 3) = m3 at *
    generalize Ex g (wtdP g L (massP g ρ) lw) b c (fun d => (g.value q d - μ) ^ 4) = m4 at *
    rw [Num.sqrt_fin hv] at eS eK eN eX
    simp only [Num.npow_fin] at eS eK eN eX
    constructor
    · intro hne
      have hv0 : v ≠ 0 := fun e => hne (by rw [eV, e])
      have hvp : 0 < v := lt_of_le_of_ne hv (Ne.symm hv0)
      have hsp := Real.sqrt_pos.2 hvp
      have hk := hpe hvp
      rw [Num.fin_div _ _ (by positivity)] at eS eK eN eX
      refine ⟨_, _, eS, eK, ?_, hk, ?_, ?_⟩
      · rw [eX, Num.fin_sub]
      · have := sq_nonneg (m3 / Real.sqrt v ^ 3); linarith
      · rw [eN, Real.sq_sqrt hv, div_self hv0]
    · intro he
      have hv0 : v = 0 := Num.fin_injective (eV.symm.trans he)
      obtain ⟨z3, z4⟩ := hz3 hv0
      subst hv0 z3 z4
      simp [eS, eK, eN, eX]

/-! ### C18 -/

/-- Covariance of two quantities of different variables (`a0 a1` is the string of the two variables
in alphabetical order), marginal or conditional. -/
theorem C18_covariance (h : BaseIs cube stored g ρ L)
    (hlw : lw = true → 0 < totalLight g L (massP g ρ)) (a0 a1 : Char) (b : PyStr)
    (hab : ValidPair [a0, a1] b) :
    ∃ r, (obj (baseSelf cube stored)).getCovariance (distStr [a0, a1] b) lw = .ok r ∧
      r.shape = compShape [a0] ++ compShape [a1] ++ g.shapeOf b ∧
      ∀ q q', varOf q = [a0] → varOf q' = [a1] → ∀ c, g.Has c →
        r.get (compIdx q ++ compIdx q' ++ coords b c) = g.expect (wtdP g L (massP g ρ) lw) (fun d =>
          (g.value q d - g.mean (wtdP g L (massP g ρ) lw) q b d) *
          (g.value q' d - g.mean (wtdP g L (massP g ρ) lw) q' b d)) b c := by
  obtain ⟨r, hr, hr1, hr2⟩ := (h.std hlw b).covariance hab
  exact ⟨r, hr, hr1, fun q q' hq hq' c hc => hr2 q (varOf_mem hq) q' (varOf_mem hq') c hc⟩

/-- There are 24 strings with two dependent variables... -/
theorem C18_count : (([] :: marginals).map fun b => (marginals.filter fun a =>
    a.length = 2 ∧ ValidPair a b).length).sum = 24 := by decide +kernel

/-- ... and for a normalised distribution the covariance is `E[ab] - E[a]E[b]`. -/
theorem C18_formula (h : BaseIs cube stored g ρ L)
    (hlw : lw = true → 0 < totalLight g L (massP g ρ)) (a0 a1 : Char) (b : PyStr)
    (hab : ValidPair [a0, a1] b) (hN : b = [] → lw = false → g.sumCells (massP g ρ) = 1) :
    ∃ r, (obj (baseSelf cube stored)).getCovariance (distStr [a0, a1] b) lw = .ok r ∧
      ∀ q q', varOf q = [a0] → varOf q' = [a1] → ∀ c, g.Has c →
        g.condWt (wtdP g L (massP g ρ) lw) b c ≠ 0 →
        r.get (compIdx q ++ compIdx q' ++ coords b c) = .fin (
          Ex g (wtdP g L (massP g ρ) lw) b c (fun d => g.value q d * g.value q' d) -
          Ex g (wtdP g L (massP g ρ) lw) b c (g.value q) *
          Ex g (wtdP g L (massP g ρ) lw) b c (g.value q')) := by
  obtain ⟨r, hr, hr1, hr2⟩ := (h.std hlw b).covarianceEx hab
  refine ⟨r, hr, fun q q' hq hq' c hc h0 => ?_⟩
  have := hr2 q (varOf_mem hq) q' (varOf_mem hq') c hc
  simp only [h0, if_false] at this
  rw [this, (pos_Ex (fun d hd => h.wtd_nonneg lw hd) h0 (fun e => total_one hlw (hN e))).cov]

/-- Anything but two dependent variables raises `ValueError`, for covariances and correlations of
every object. -/
theorem C18_rejects (o : Obj) (a b : PyStr) (ha : '_' ∉ a) (hb : '_' ∉ b) (h2 : a.length ≠ 2) :
    o.getCovariance a lw = .error .valueError ∧ o.getCovariance (condStr a b) lw = .error .valueError ∧
    o.getCorrelation a lw = .error .valueError ∧
    o.getCorrelation (condStr a b) lw = .error .valueError := by
  have hu : '_' ∈ condStr a b := hasUnderscore_condStr a b
  have hs := split_condStr ha hb
  unfold Obj.getCovariance Obj.getCorrelation
  rw [if_neg ha, if_pos hu, if_neg ha, if_pos hu, hs]
  rcases a with _ | ⟨a0, _ | ⟨a1, _ | ⟨a2, a⟩⟩⟩
  · simp
  · simp
  · simp at h2
  · simp

/-! ### C19 -/

/-- The correlation is covariance / sqrt(variance product), lies in [-1,1] wherever both variances
are non-zero, and is nan where one of them vanishes. -/
theorem C19_correlation (h : BaseIs cube stored g ρ L)
    (hlw : lw = true → 0 < totalLight g L (massP g ρ)) (a0 a1 : Char) (b : PyStr)
    (hab : ValidPair [a0, a1] b) (hN : b = [] → lw = false → g.sumCells (massP g ρ) = 1) :
    ∃ R C V0 V1, (obj (baseSelf cube stored)).getCorrelation (distStr [a0, a1] b) lw = .ok R ∧
      (obj (baseSelf cube stored)).getCovariance (distStr [a0, a1] b) lw = .ok C ∧
      (obj (baseSelf cube stored)).getVariance (distStr [a0] b) lw = .ok V0 ∧
      (obj (baseSelf cube stored)).getVariance (distStr [a1] b) lw = .ok V1 ∧
      R.shape = compShape [a0] ++ compShape [a1] ++ g.shapeOf b ∧
      ∀ q q', varOf q = [a0] → varOf q' = [a1] → ∀ c, g.Has c →
        g.condWt (wtdP g L (massP g ρ) lw) b c ≠ 0 → ∃ v0 v1 k : ℝ, 0 ≤ v0 ∧ 0 ≤ v1 ∧
          V0.get (compIdx q ++ coords b c) = .fin v0 ∧ V1.get (compIdx q' ++ coords b c) = .fin v1 ∧
          C.get (compIdx q ++ compIdx q' ++ coords b c) = .fin k ∧
          (v0 ≠ 0 → v1 ≠ 0 → ∃ x, R.get (compIdx q ++ compIdx q' ++ coords b c) = .fin x ∧
            x = k / Real.sqrt (v0 * v1) ∧ -1 ≤ x ∧ x ≤ 1) ∧
          (v0 = 0 ∨ v1 = 0 → R.get (compIdx q ++ compIdx q' ++ coords b c) = .nan) := by
  have hst := h.std hlw b
  obtain ⟨hv0, hv1⟩ := validPair_sub hab
  obtain ⟨C, hC, hC'⟩ := hst.covarianceEx hab
  obtain ⟨V0, hV0, hV0'⟩ := hst.centralEx hv0 rfl 2
  obtain ⟨V1, hV1, hV1'⟩ := hst.centralEx hv1 rfl 2
  obtain ⟨R, hR, hR'⟩ := corCore_table hab hC hC' hV0 hV0' hV1 hV1'
  refine ⟨R, C, V0, V1, hR, hC, hV0, hV1, hR'.1, fun q q' hq hq' c hc h0 => ?_⟩
  have hE := pos_Ex (fun d hd => h.wtd_nonneg lw hd) h0 (fun e => total_one hlw (hN e))
  have eC := hC'.2 q (varOf_mem hq) q' (varOf_mem hq') c hc
  have eR := hR'.2 q (varOf_mem hq) q' (varOf_mem hq') c hc
  have e0 := hV0'.2 q (varOf_mem hq) c hc
  have e1 := hV1'.2 q' (varOf_mem hq') c hc
  simp only [h0, if_false] at eC eR e0 e1
  set μ := Ex g (wtdP g L (massP g ρ) lw) b c (g.value q)
  set μ' := Ex g (wtdP g L (massP g ρ) lw) b c (g.value q')
  have hcs := hE.cauchy (fun d => g.value q d - μ) (fun d => g.value q' d - μ')
  have n0 : 0 ≤ Ex g (wtdP g L (massP g ρ) lw) b c (fun d => (g.value q d - μ) ^ 2) :=
    hE.nonneg _ fun d => sq_nonneg _
  have n1 : 0 ≤ Ex g (wtdP g L (massP g ρ) lw) b c (fun d => (g.value q' d - μ') ^ 2) :=
    hE.nonneg _ fun d => sq_nonneg _
  refine ⟨_, _, _, n0, n1, e0, e1, eC, ?_, ?_⟩
  all_goals
    generalize Ex g (wtdP g L (massP g ρ) lw) b c (fun d => (g.value q d - μ) ^ 2) = v0 at *
    generalize Ex g (wtdP g L (massP g ρ) lw) b c (fun d => (g.value q' d - μ') ^ 2) = v1 at *
    generalize Ex g (wtdP g L (massP g ρ) lw) b c
      (fun d => (g.value q d - μ) * (g.value q' d - μ')) = k at *
    rw [Num.fin_mul, Num.sqrt_fin (mul_nonneg n0 n1)] at eR
  · intro z0 z1
    have p0 : 0 < v0 := lt_of_le_of_ne n0 (Ne.symm z0)
    have p1 : 0 < v1 := lt_of_le_of_ne n1 (Ne.symm z1)
    have hs := Real.sqrt_pos.2 (mul_pos p0 p1)
    rw [Num.fin_div _ _ hs.ne'] at eR
    have ha : |k| ≤ Real.sqrt (v0 * v1) := Real.abs_le_sqrt hcs
    obtain ⟨ha1, ha2⟩ := abs_le.1 ha
    refine ⟨_, eR, rfl, ?_, ?_⟩
    · rw [le_div_iff₀ hs]; linarith
    · rw [div_le_iff₀ hs]; linarith
  · intro z
    have hz : v0 * v1 = 0 := mul_eq_zero.2 z
    rw [hz] at hcs eR
    have : k = 0 := pow_eq_zero_iff (two_ne_zero) |>.1 (le_antisymm hcs (sq_nonneg _))
    rw [eR, this, Real.sqrt_zero, Num.zero_div_zero]

/-! ### The hypotheses are met -/

/-- For the component `demoBase` all the theorems above apply, mass- and light-weighted, e.g. for the
mean velocity and its variance given the position: number in pixel (1,0), nan in the empty pixel (0,0). -/
example : ∃ cube m, getMean (baseSelf cube demoStored) ['v','_','x'] false = .ok m ∧
    m.shape = [demoGrid.nx, demoGrid.ny] ∧ m.get [0, 0] = .nan ∧ ∃ x : ℝ, m.get [1, 0] = .fin x ∧
    centre demoGrid.v 0 ≤ x ∧ x ≤ centre demoGrid.v (demoGrid.nv - 1) := by
  obtain ⟨cube, -, -, h, -, -, h0, h1⟩ := demoBase
  have hb : ValidPair (varOf 'v') ['x'] := by decide
  obtain ⟨m, hm, hs, hg⟩ := C13_means (lw := false) h (by simp) 'v' (by decide) ['x'] hb
  obtain ⟨m', hm', hg'⟩ := C14_mean_in_grid (lw := false) h (by simp) 'v' (by decide) ['x'] hb (by simp)
  have e : m = m' := by
    have := hm.symm.trans hm'
    injection this
  subst e
  refine ⟨cube, m, hm, hs, ?_, ?_⟩
  · have := hg ⟨0, 0, 0, 0, 0⟩ (by simp [Grid.Has, demoGrid, cubeGrid])
    have this : m.get [0, 0] = _ := this
    rw [this, Grid.expect, if_pos]
    simpa [Grid.condWt, wtdP] using h0
  · rcases hg' ⟨0, 0, 1, 0, 0⟩ (by simp [Grid.Has, demoGrid, cubeGrid]) with ⟨-, -, e⟩ | ⟨x, hx, h2⟩
    · exact absurd (by simpa [wtdP] using e) h1
    · exact ⟨x, hx, h2⟩

end PKM
