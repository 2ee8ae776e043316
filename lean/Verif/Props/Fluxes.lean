import Verif.Props.Templates
import Verif.Props.FluxUnit
import Verif.Props.Noise
import Verif.Props.Mixture

/-!
# C103: fluxes lie between the smallest and the largest flux of the templates, and noise can be drawn

A user who gives templates without negative fluxes expects a datacube without negative fluxes; `ShotNoise` and `ConstantSNR` raise
`ValueError` if one flux is negative. Velocities move flux between wavelengths, so every flux of a pixel should be between the
smallest and the largest flux of the templates times the stars in the pixel. This is true for plain components with as many velocity
bins as wavelengths. For parametric components the code shifts the band-limited continuation of the templates, which can be negative
between the wavelengths although no template is: bounds of the continuation are bounds of the flux, bounds of the templates are not.

* `Between y g n lo hi`: `y` has `n` wavelengths and in pixel `(i, j)` all its fluxes are between `lo i j` and `hi i j`.
* `NoiseDrawn y` (`NoiseRefused y`): with the datacube `y`, every call of `get_noisy_data` with a positive signal-to-noise ratio, of
  either class, returns an array (raises `ValueError`).
-/

open scoped Classical
open MeasureTheory ProbabilityTheory

noncomputable section

namespace PKM
open Np Component

variable {p : Param} {g : Grid} {m : Ingredients} {L : ℕ → ℕ → ℝ} {sp : Spectra} {S : ℕ → ℕ → ℕ → ℝ} {n v0 : ℕ}
  {interp : ℕ → (ℕ → ℂ) → ℝ → ℂ} {cube : IFUCube} {stored : Arr Num} {ρ : Cell → ℝ} {y : Arr Num} {lo hi : ℕ → ℕ → ℝ}

/-- All fluxes of pixel `(i, j)` of the datacube `y` are between `lo i j` and `hi i j`. -/
def Between (y : Arr Num) (g : Grid) (n : ℕ) (lo hi : ℕ → ℕ → ℝ) : Prop :=
  y.shape = [n, g.nx, g.ny] ∧ ∀ k < n, ∀ i < g.nx, ∀ j < g.ny, ∃ u, y.get [k, i, j] = .fin u ∧ lo i j ≤ u ∧ u ≤ hi i j

/-- `get_noisy_data` returns an array, for both classes of noise, any positive signal-to-noise ratio, any random numbers and any
state of memory in which the datacube of the component is `y`. -/
def NoiseDrawn (y : Arr Num) : Prop :=
  ∀ (z : ℕ → ℝ) (c : NoiseTarget) (o : Ptr) (h : Heap), c.ybar = some o → Points h o y → ∀ (k : NoiseKind) (snr : ℝ), 0 < snr →
    ∃ r, (getNoisyData z c k (.fin snr) h).1 = .ok r

/-- `get_noisy_data` raises `ValueError` in all these cases. -/
def NoiseRefused (y : Arr Num) : Prop :=
  ∀ (z : ℕ → ℝ) (c : NoiseTarget) (o : Ptr) (h : Heap), c.ybar = some o → Points h o y → ∀ (k : NoiseKind) (snr : ℝ), 0 < snr →
    (getNoisyData z c k (.fin snr) h).1 = .error .valueError

/-! ### Noise -/

/-- A real datacube that is not empty: noise can be drawn if no flux is negative, otherwise all calls raise `ValueError`. -/
theorem C103_noise {s : List ℕ} {Y : List ℕ → ℝ} (hy : IsCube y s Y) (hne : ∃ i, InBox s i) :
    ((∀ i, InBox s i → 0 ≤ Y i) → NoiseDrawn y) ∧ ((∃ i, InBox s i ∧ Y i < 0) → NoiseRefused y) := by
  refine ⟨fun h0 z c o h hc hp k snr hs => ?_, fun hneg z c o h hc hp k snr hs => C40_negative_flux z hc hp hy hneg hs k⟩
  obtain ⟨⟨r, h1, -⟩, r', i0, h2, -⟩ := C41_after_history z hc hp hy h0 hne [] hs
  cases k
  exacts [⟨r, h1⟩, ⟨r', h2⟩]

theorem Between.isCube (h : Between y g n lo hi) : ∃ Y : List ℕ → ℝ, IsCube y [n, g.nx, g.ny] Y ∧
    ∀ k < n, ∀ i < g.nx, ∀ j < g.ny, lo i j ≤ Y [k, i, j] := by
  have : ∀ q : List ℕ, ∃ u : ℝ, InBox [n, g.nx, g.ny] q → y.get q = .fin u ∧
      ∀ k i j, q = [k, i, j] → lo i j ≤ u := fun q => by
    by_cases hq : InBox [n, g.nx, g.ny] q
    · match q, hq with
      | [k, i, j], hq =>
        simp only [InBox, and_true] at hq
        obtain ⟨u, h1, h2, -⟩ := h.2 k hq.1 i hq.2.1 j hq.2.2
        exact ⟨u, fun _ => ⟨h1, fun k' i' j' e => by simp at e; obtain ⟨-, rfl, rfl⟩ := e; exact h2⟩⟩
    · exact ⟨0, fun h => absurd h hq⟩
  choose Y hY using this
  refine ⟨Y, ⟨h.1, fun q hq => (hY q hq).1⟩, fun k hk i hi j hj => (hY _ (by simp [InBox, hk, hi, hj])).2 k i j rfl⟩

/-- A datacube with a non-negative lower bound can be made noisy. -/
theorem Between.drawn (h : Between y g n lo hi) (hn : 0 < n) (hg : g.Proper) (h0 : ∀ i < g.nx, ∀ j < g.ny, 0 ≤ lo i j) :
    NoiseDrawn y := by
  obtain ⟨Y, h1, h2⟩ := h.isCube
  refine (C103_noise h1 ⟨[0, 0, 0], by simp [InBox, hn, hg.nx, hg.ny]⟩).1 fun q hq => ?_
  match q, hq with
  | [k, i, j], hq =>
    simp only [InBox, and_true] at hq
    exact (h0 i hq.2.1 j hq.2.2).trans (h2 k hq.1 i hq.2.1 j hq.2.2)

/-! ### Plain components -/

/-- Bounds of the templates, per age and metallicity, times the stars of that age and metallicity in each pixel are bounds of the fluxes
of a plain component with as many velocity bins as wavelengths. -/
theorem C103_plain_partial (hI : Interp interp) (h : BaseIs cube stored g ρ L) (hS : SpectraAre sp g S n n) (h0 : ZeroBin g.nv g.v v0)
    (hw : ∀ i < g.nv, width g.v i = sp.dv) (hmid : v0 = g.nv / 2) (hm : 6 ≤ g.nv) (hnv : g.nv = n) (a b : ℕ → ℕ → ℝ)
    (hab : ∀ t < g.nt, ∀ z < g.nz, ∀ k < n, a t z ≤ S t z k ∧ S t z k ≤ b t z) : ∀ batch ∈ batches,
    ∃ y, evaluateYbar interp (baseSelf cube stored) sp batch = .ok y ∧
      Between y g n (fun i j => ∑ t : Fin g.nt, ∑ z : Fin g.nz, a t z * g.marg (massP g ρ) ['t','x','z'] ⟨t, 0, i, j, z⟩)
        (fun i j => ∑ t : Fin g.nt, ∑ z : Fin g.nz, b t z * g.marg (massP g ρ) ['t','x','z'] ⟨t, 0, i, j, z⟩) ∧
      ((∀ t < g.nt, ∀ z < g.nz, 0 ≤ a t z) → NoiseDrawn y) := by
  have hn : 0 < n := by omega
  have hv : VelocityOk g.nv g.v sp.dv v0 := by
    refine ⟨fun i hi => ?_, fun i hi => ?_, hmid⟩
    · rw [hw i hi, sub_self, abs_zero]; positivity
    · have h1 := h.proper.v i (by omega)
      have h2 := h.proper.v (i + 1) hi
      unfold centre
      linarith
  intro batch hb
  obtain ⟨y, e1, e2⟩ := plain_batches hI h hn hS h0 hv hm hb
  obtain ⟨y0, f1, f2⟩ := plain_batches hI h hn hS h0 hv hm (batch := "none".toList) (by simp [batches])
  obtain ⟨r, r1, r2⟩ := C26_convolution hI h hS h0 hv hm hnv
  obtain rfl : y0 = r := by rw [f1] at r1; exact Except.ok.inj r1
  have vol : ∀ t z i j v, v < g.nv → ρ ⟨t, v, i, j, z⟩ * (width g.t t * sp.dv * width g.x i * width g.y j * width g.z z) =
      massP g ρ ⟨t, v, i, j, z⟩ := fun t z i j v hv => by
    simp only [massP, Grid.cellVolume, hw v hv]
  have mass0 : ∀ c, g.Has c → 0 ≤ massP g ρ c := fun c hc => massP_nonneg h.proper h.nonneg hc
  have B : Between y g n (fun i j => ∑ t : Fin g.nt, ∑ z : Fin g.nz, a t z * g.marg (massP g ρ) ['t','x','z'] ⟨t, 0, i, j, z⟩)
      (fun i j => ∑ t : Fin g.nt, ∑ z : Fin g.nz, b t z * g.marg (massP g ρ) ['t','x','z'] ⟨t, 0, i, j, z⟩) := by
    refine ⟨e2.1, fun k hk i hi j hj => ⟨_, (e2.2 k hk i hi j hj).trans ((f2.2 k hk i hi j hj).symm.trans (r2 k hk i hi j hj)), ?_⟩⟩
    subst hnv
    have hmod : ∀ v : ℕ, (((k : ℤ) - ((v : ℤ) - v0)) % g.nv).toNat < g.nv := fun v => by
      have := Int.emod_lt_of_pos ((k : ℤ) - ((v : ℤ) - v0)) (b := g.nv) (by omega)
      have := Int.emod_nonneg ((k : ℤ) - ((v : ℤ) - v0)) (b := g.nv) (by omega)
      omega
    constructor
    all_goals
      refine Finset.sum_le_sum fun t _ => Finset.sum_le_sum fun z _ => ?_
      rw [marg_txz t.2 hi hj z.2, Finset.mul_sum]
      refine Finset.sum_le_sum fun v _ => ?_
      rw [vol t z i j v v.2]
      have := mass0 ⟨t, v, i, j, z⟩ ⟨t.2, v.2, hi, hj, z.2⟩
      gcongr
    exacts [(hab t t.2 z z.2 _ (hmod v)).1, (hab t t.2 z z.2 _ (hmod v)).2]
  refine ⟨y, e1, B, fun ha => B.drawn hn h.proper fun i hi j hj => ?_⟩
  refine Finset.sum_nonneg fun t _ => Finset.sum_nonneg fun z _ => mul_nonneg (ha t t.2 z z.2) ?_
  rw [marg_txz t.2 hi hj z.2]
  exact Finset.sum_nonneg fun v _ => mass0 ⟨t, v, i, j, z⟩ ⟨t.2, v.2, hi, hj, z.2⟩

/-! ### Parametric components -/

/-- Bounds of the band-limited continuation of the templates, times the stars in each pixel, are bounds of the fluxes of a parametric
component, whatever its velocities. -/
theorem C103_parametric_partial (h : ParamIs p g m L) (hn : 0 < n) (hS : SpectraAre sp g S n n) (a b : ℕ → ℕ → ℝ)
    (hab : ∀ t < g.nt, ∀ z < g.nz, ∀ u, a t z ≤ continued n (S t z) u ∧ continued n (S t z) u ≤ b t z) : ∀ batch ∈ batches,
    ∃ y, p.evaluateYbar sp batch = .ok y ∧
      Between y g n (fun i j => ∑ t : Fin g.nt, ∑ z : Fin g.nz, a t z * m.probTXZ g ⟨t, 0, i, j, z⟩)
        (fun i j => ∑ t : Fin g.nt, ∑ z : Fin g.nz, b t z * m.probTXZ g ⟨t, 0, i, j, z⟩) ∧
      ((∀ t < g.nt, ∀ z < g.nz, 0 ≤ a t z) → NoiseDrawn y) := by
  intro batch hb
  obtain ⟨y, e1, e2⟩ := param_batches h hn hS hb
  have pad : ∀ t z u, continued n (padded n (S t z)) u = continued n (S t z) u := fun t z u => by
    unfold continued padded
    exact Finset.sum_congr rfl fun i hi => by rw [if_pos (Finset.mem_range.1 hi)]
  have has : ∀ {t z i j}, t < g.nt → z < g.nz → i < g.nx → j < g.ny → 0 ≤ m.probTXZ g ⟨t, 0, i, j, z⟩ := fun ht hz hi hj =>
    h.norm.probTXZ_nonneg (c := ⟨_, 0, _, _, _⟩) h.proper ⟨ht, h.proper.nv, hi, hj, hz⟩
  have B : Between y g n (fun i j => ∑ t : Fin g.nt, ∑ z : Fin g.nz, a t z * m.probTXZ g ⟨t, 0, i, j, z⟩)
      (fun i j => ∑ t : Fin g.nt, ∑ z : Fin g.nz, b t z * m.probTXZ g ⟨t, 0, i, j, z⟩) := by
    refine ⟨e2.1, fun k hk i hi j hj => ⟨_, e2.2 k hk i hi j hj, ?_⟩⟩
    rw [ybarOf_stretched hn]
    unfold losvdConvolved
    have int : ∀ t z : ℕ, Integrable (fun v => continued n (padded n (S t z)) (k - v / (sp.dv * (2 * (n / 2 : ℕ) / n))))
        (normal (m.mu t i j) (m.sig t i j)) := fun t z => by
      have := integrable_continued (m.mu t i j) (m.sig t i j) (sp.dv * (2 * (n / 2 : ℕ) / n))⁻¹ k n (padded n (S t z))
      refine this.congr (Filter.Eventually.of_forall fun v => ?_)
      beta_reduce
      congr 1
      rw [div_eq_inv_mul v]
    have hp : IsProbabilityMeasure (normal (m.mu 0 i j) (m.sig 0 i j)) := by unfold normal; infer_instance
    constructor
    all_goals
      refine Finset.sum_le_sum fun t _ => Finset.sum_le_sum fun z _ => ?_
      have h0 := has t.2 z.2 hi hj
      have hp : IsProbabilityMeasure (normal (m.mu t i j) (m.sig t i j)) := by unfold normal; infer_instance
      rw [mul_comm]
      gcongr
    · refine (by simp : a t z = ∫ _, a t z ∂normal (m.mu t i j) (m.sig t i j)).le.trans (integral_mono (integrable_const _) (int t z) fun v => ?_)
      beta_reduce
      rw [pad]
      exact (hab t t.2 z z.2 _).1
    · refine (integral_mono (int t z) (integrable_const (b t z)) fun v => ?_).trans (by simp)
      beta_reduce
      rw [pad]
      exact (hab t t.2 z z.2 _).2
  exact ⟨y, e1, B, fun ha => B.drawn hn h.proper fun i hi j hj =>
    Finset.sum_nonneg fun t _ => Finset.sum_nonneg fun z _ => mul_nonneg (ha t t.2 z z.2) (has t.2 z.2 hi hj)⟩

theorem dirichlet_zero {n : ℕ} (hn : 0 < n) : dirichlet n 0 = 1 := by
  have := continued_at hn (fun k => if k = 0 then 1 else 0) (k := 0) hn
  simpa [continued, hn] using this

theorem dirichlet_le {n : ℕ} (hn : 0 < n) (u : ℝ) : |dirichlet n u| ≤ 1 := by
  rw [← dirichlet_zero hn]
  unfold dirichlet
  rw [abs_div, Nat.abs_cast]
  gcongr
  refine (abs_add_le _ _).trans ?_
  rw [abs_one]
  gcongr
  refine (Finset.abs_sum_le_sum_abs _ _).trans (Finset.sum_le_sum fun j _ => ?_)
  rw [abs_mul, mul_zero, zero_div, Real.cos_zero, mul_one]
  have := Real.abs_cos_le_one (2 * Real.pi * j * u / n)
  split_ifs
  · simpa using this
  · rw [abs_two]; linarith

/-- The continuation of a constant is the constant. -/
theorem continued_const {n : ℕ} (hn : 0 < n) (c u : ℝ) : continued n (fun _ => c) u = c := by
  have e := irfft_gauss (n := n) (fun _ => c) (-u) 0 1 0
  have d : normal (-u) 0 = Measure.dirac (-u) := by
    unfold normal
    rw [show ((0 : ℝ) ^ 2).toNNReal = 0 by simp, gaussianReal_zero_var]
  rw [d, integral_dirac] at e
  simp only [Nat.cast_zero, one_mul, zero_sub, neg_neg] at e
  rw [← e, irfft_point hn _ fun w hw h0 => by rw [rfft_const hn c hw h0, zero_mul]]
  have hn' : (n : ℝ) ≠ 0 := by exact_mod_cast hn.ne'
  rw [show (2 * Real.pi * ((0 : ℕ) : ℝ) * 1 / n) = 0 by simp, gaussFT_zero, mul_one, Fft.rfft_zero _ _ _ le_rfl, Complex.ofReal_re]
  simp only [Finset.sum_const, Finset.card_range, nsmul_eq_mul]
  field_simp

/-- The continuation stays as close to a level as the distances of all samples from it add up to. -/
theorem continued_near {n : ℕ} (hn : 0 < n) (s : ℕ → ℝ) (c u : ℝ) :
    |continued n s u - c| ≤ ∑ k ∈ Finset.range n, |s k - c| := by
  conv_lhs => rw [← continued_const hn c u]
  unfold continued
  rw [← Finset.sum_sub_distrib]
  refine (Finset.abs_sum_le_sum_abs _ _).trans (Finset.sum_le_sum fun k _ => ?_)
  rw [← sub_mul, abs_mul]
  exact mul_le_of_le_one_right (abs_nonneg _) (dirichlet_le hn _)

/-- If the deviations of each template from a level add up to at most that level (a continuum with weak lines), the datacube of a
parametric component has no negative flux and noise can be drawn. -/
theorem C103_weak_lines_partial (h : ParamIs p g m L) (hn : 0 < n) (hS : SpectraAre sp g S n n) (c : ℕ → ℕ → ℝ)
    (hc : ∀ t < g.nt, ∀ z < g.nz, ∑ k ∈ Finset.range n, |S t z k - c t z| ≤ c t z) : ∀ batch ∈ batches,
    ∃ y, p.evaluateYbar sp batch = .ok y ∧
      Between y g n (fun _ _ => 0) (fun i j => ∑ t : Fin g.nt, ∑ z : Fin g.nz, 2 * c t z * m.probTXZ g ⟨t, 0, i, j, z⟩) ∧
      NoiseDrawn y := by
  intro batch hb
  obtain ⟨y, h1, h2, h3⟩ := C103_parametric_partial h hn hS (fun _ _ => 0) (fun t z => 2 * c t z) (fun t ht z hz u => by
    have := abs_le.1 ((continued_near hn (S t z) (c t z) u).trans (hc t ht z hz))
    constructor <;> linarith) batch hb
  refine ⟨y, h1, ⟨h2.1, fun k hk i hi j hj => ?_⟩, h3 fun _ _ _ _ => le_rfl⟩
  simpa using h2.2 k hk i hi j hj

/-! ### Mixtures -/

/-- If no member of a mixture has negative fluxes, the mixture has none. -/
theorem C103_mixture {mx : Mix} (Y : ℕ → Arr Num) (h0 : mx.children ≠ []) (hlen : mx.children.length = mx.weights.length)
    (hw : ∀ w ∈ mx.weights, 0 ≤ w) (hn : 0 < n) (hg : g.Proper) (lo hi : ℕ → ℕ → ℕ → ℝ)
    (hlo : ∀ i < mx.children.length, ∀ x < g.nx, ∀ y < g.ny, 0 ≤ lo i x y)
    (hY : ∀ (i : ℕ) (hi' : i < mx.children.length), mx.children[i].ybar = some (Y i) ∧ Between (Y i) g n (lo i) (hi i)) :
    ∃ y, mx.evaluateYbar = .ok { mx with ybar := some y } ∧
      Between y g n (fun a b => ∑ i : Fin mx.weights.length, mx.weights[i] * lo i a b)
        (fun a b => ∑ i : Fin mx.weights.length, mx.weights[i] * hi i a b) ∧ NoiseDrawn y := by
  obtain ⟨y, h1, h2, h3⟩ := C30_weighted_sum mx Y [n, g.nx, g.ny] h0 hlen fun i hi' => ⟨(hY i hi').1, (hY i hi').2.1⟩
  have B : Between y g n (fun a b => ∑ i : Fin mx.weights.length, mx.weights[i] * lo i a b)
      (fun a b => ∑ i : Fin mx.weights.length, mx.weights[i] * hi i a b) := by
    refine ⟨h2, fun k hk a ha b hb => ?_⟩
    have : ∀ i : Fin mx.weights.length, ∃ u, (Y i).get [k, a, b] = .fin u ∧ lo i a b ≤ u ∧ u ≤ hi i a b := fun i =>
      (hY i (by rw [hlen]; exact i.2)).2.2 k hk a ha b hb
    choose u hu using this
    refine ⟨∑ i : Fin mx.weights.length, mx.weights[i] * u i, ?_, ?_, ?_⟩
    · rw [h3 _ (by simp [InBox, hk, ha, hb]), ← Num.fin_sum]
      exact Finset.sum_congr rfl fun i _ => by rw [(hu i).1, Num.fin_mul]
    · exact Finset.sum_le_sum fun i _ => mul_le_mul_of_nonneg_left (hu i).2.1 (hw _ (List.getElem_mem _))
    · exact Finset.sum_le_sum fun i _ => mul_le_mul_of_nonneg_left (hu i).2.2 (hw _ (List.getElem_mem _))
  refine ⟨y, h1, B, B.drawn hn hg fun a ha b hb => ?_⟩
  exact Finset.sum_nonneg fun i _ => mul_nonneg (hw _ (List.getElem_mem _)) (hlo i (by rw [hlen]; exact i.2) a ha b hb)

/-! ### A negative flux -/

/-- A template with light at its first wavelength only. -/
def oneLine (_t _z k : ℕ) : ℝ := if k = 0 then 1 else 0

theorem gaussFT_re (mu sig w : ℝ) : (gaussFT mu sig w).re = Real.exp (-(1 / 2) * (sig * w) ^ 2) * Real.cos (mu * w) := by
  unfold gaussFT
  rw [show -Complex.I * mu * w - 0.5 * (sig * w) ^ 2 = ((-(1 / 2) * (sig * w) ^ 2 : ℝ) : ℂ) + ((-(mu * w) : ℝ) : ℂ) * Complex.I by
    push_cast; ring, Complex.exp_add, Complex.exp_mul_I, ← Complex.ofReal_exp, ← Complex.ofReal_cos, ← Complex.ofReal_sin,
    Real.cos_neg, Real.sin_neg, Complex.re_ofReal_mul, Complex.add_re, Complex.re_ofReal_mul, Complex.ofReal_re, Complex.I_re, mul_zero,
    add_zero]

theorem blur_oneLine (hsp : sp.dv = 100) : blur sp 4 (oneLine 0 0) 50 (1 / 10) 2 < 0 := by
  unfold blur
  have hr : ∀ w, Fft.rfft 4 4 (oneLine 0 0) w = 1 := fun w => by
    unfold Fft.rfft oneLine
    simp [Finset.sum_range_succ, Fft.root]
  have hf : ∀ w, Param.freq sp 4 w = w * (Real.pi / 200) := fun w => by
    unfold Param.freq Fft.half
    rw [hsp]
    norm_num
    ring
  have r2 : Fft.root 4 ((1 : ℕ) * (2 : ℕ)) = -1 := by
    unfold Fft.root
    rw [← Complex.exp_pi_mul_I]
    congr 1
    push_cast
    ring
  have r4 : Fft.root 4 ((2 : ℕ) * (2 : ℕ)) = 1 := by
    unfold Fft.root
    rw [← Complex.exp_two_pi_mul_I]
    congr 1
    push_cast
    ring
  have c1 : Real.cos (50 * (((1 : ℕ) : ℝ) * (Real.pi / 200))) = √2 / 2 := by
    rw [← Real.cos_pi_div_four]; congr 1; push_cast; ring
  have c2 : Real.cos (50 * (((2 : ℕ) : ℝ) * (Real.pi / 200))) = 0 := by
    rw [← Real.cos_pi_div_two]; congr 1; push_cast; ring
  have hpi := Real.pi_le_four
  have hpi0 := Real.pi_pos
  have hs : (14 / 10 : ℝ) ≤ √2 := Real.le_sqrt_of_sq_le (by norm_num)
  have he : (9 / 10 : ℝ) ≤ Real.exp (-(1 / 2) * (1 / 10 * (((1 : ℕ) : ℝ) * (Real.pi / 200))) ^ 2) := by
    refine le_trans ?_ (Real.add_one_le_exp _)
    push_cast
    nlinarith
  unfold Fft.irfft
  rw [show Fft.half 4 = 3 from rfl, show Finset.Ico 1 3 = {1, 2} from rfl, Finset.sum_pair (by norm_num)]
  simp only [hr, hf, one_mul]
  rw [if_neg (by norm_num), if_pos (by norm_num), r2, r4, mul_one, mul_neg, mul_one, Complex.neg_re, gaussFT_re, gaussFT_re, gaussFT_re,
    c1, c2]
  norm_num at he ⊢
  nlinarith

/-- Templates without negative fluxes can give negative fluxes: a disk with mean velocities of half a wavelength step has, from
templates with one line, a negative flux in every pixel, and no noise can be drawn. -/
theorem C103_negative : ∃ (p : Param) (m : Ingredients) (sp : Spectra) (S : ℕ → ℕ → ℕ → ℝ), ParamIs p demoGrid m demoL ∧
    SpectraAre sp demoGrid S 4 4 ∧ (∀ t z k, 0 ≤ S t z k) ∧ ∀ batch ∈ batches, ∃ y, p.evaluateYbar sp batch = .ok y ∧
      y.shape = [4, demoGrid.nx, demoGrid.ny] ∧
      (∀ i < demoGrid.nx, ∀ j < demoGrid.ny, ∃ u < 0, y.get [2, i, j] = .fin u) ∧ NoiseRefused y := by
  obtain ⟨p, hp, -⟩ := flatDisk_exists (fun _ => 50)
  obtain ⟨sp, hS, hdv⟩ := anySpectra_exist oneLine 4 100
  refine ⟨p, _, sp, _, hp, hS, fun t z k => by unfold oneLine; split_ifs <;> norm_num, fun batch hb => ?_⟩
  obtain ⟨y, e1, e2⟩ := param_batches hp (by norm_num) hS hb
  have neg : ∀ i < demoGrid.nx, ∀ j < demoGrid.ny, Param.ybarOf demoGrid (flatIngr fun _ => 50) sp oneLine 4 4 2 i j < 0 := by
    intro i hi j hj
    rw [ybarOf_blur]
    have : ∀ (t : Fin demoGrid.nt) (z : Fin demoGrid.nz), (flatIngr fun _ => 50).probTXZ demoGrid ⟨t, 0, i, j, z⟩ *
        blur sp 4 (oneLine t z) ((flatIngr fun _ => 50).mu t i j) ((flatIngr fun _ => 50).sig t i j) 2 =
        1 / 180 * blur sp 4 (oneLine 0 0) 50 (1 / 10) 2 := fun t z => by
      rw [flat_probTXZ _ (c := ⟨t, 0, i, j, z⟩) ⟨t.2, demoGrid_proper.nv, hi, hj, z.2⟩]
      rfl
    simp only [this, Finset.sum_const, Finset.card_univ, Fintype.card_fin]
    have := blur_oneLine hdv
    norm_num [demoGrid, cubeGrid]
    linarith
  refine ⟨y, e1, e2.1, fun i hi j hj => ⟨_, neg i hi j hj, e2.2 2 (by norm_num) i hi j hj⟩, ?_⟩
  refine (C103_noise (s := [4, demoGrid.nx, demoGrid.ny])
    (Y := fun q => Param.ybarOf demoGrid (flatIngr fun _ => 50) sp oneLine 4 4 (q.getD 0 0) (q.getD 1 0) (q.getD 2 0)) ⟨e2.1, fun q hq => ?_⟩
    ⟨[2, 0, 0], by simp [InBox, demoGrid_proper.nx, demoGrid_proper.ny]⟩).2
    ⟨[2, 0, 0], by simp [InBox, demoGrid_proper.nx, demoGrid_proper.ny], neg 0 demoGrid_proper.nx 0 demoGrid_proper.ny⟩
  match q, hq with
  | [k, i, j], hq =>
    simp only [InBox, and_true] at hq
    exact e2.2 k hq.1 i hq.2.1 j hq.2.2

/-! ### The hypotheses are met -/

/-- A disk with mean velocities of half a step, templates with a weak line: noise can be drawn; also for a mixture of two such disks. -/
example : ∃ (p : Param) (m : Ingredients) (sp : Spectra) (y Y : Arr Num) (mx : Mix), ParamIs p demoGrid m demoL ∧
    SpectraAre sp demoGrid (fun t z k => 10 + t + z + oneLine t z k) 4 4 ∧ p.evaluateYbar sp "none".toList = .ok y ∧ NoiseDrawn y ∧
    mx.weights = [1 / 4, 3 / 4] ∧ mx.evaluateYbar = .ok { mx with ybar := some Y } ∧ NoiseDrawn Y := by
  obtain ⟨p, hp, -⟩ := flatDisk_exists (fun _ => 50)
  obtain ⟨sp, hS, hdv⟩ := anySpectra_exist (fun t z k => 10 + t + z + oneLine t z k) 4 100
  obtain ⟨y, h1, h2, h3⟩ := C103_weak_lines_partial hp (by norm_num) hS (fun t z => 10 + t + z) (fun t _ z _ => by
    simp only [add_sub_cancel_left, Finset.sum_range_succ, oneLine]
    have : (0 : ℝ) ≤ t + z := by positivity
    norm_num
    linarith) "none".toList (by decide)
  obtain ⟨Y, h4, -, h5⟩ := C103_mixture (mx := ⟨p.cube, [Component.child p.self (some y), Component.child p.self (some y)], [1 / 4, 3 / 4], none⟩)
    (fun _ => y) (by simp) rfl (by
      intro w hw
      simp only [List.mem_cons, List.not_mem_nil, or_false] at hw
      rcases hw with rfl | rfl <;> norm_num)
    (by norm_num : 0 < 4) demoGrid_proper (fun _ _ _ => 0) (fun _ => _) (fun _ _ _ _ _ _ => le_rfl) (fun i hi => by
      have : i < 2 := hi
      interval_cases i <;> exact ⟨rfl, h2⟩)
  exact ⟨p, _, sp, y, Y, _, hp, hS, h1, h3, rfl, h4, h5⟩

/-- Plain components: 7 velocity bins, templates with one line among 7 wavelengths. -/
example (hI : Interp interp) : ∃ cube sp, BaseIs cube (uniformStored 2 3 7) (uniformGrid 2 3 7 (-70, 70)) (fun _ => 1) demoL ∧
    SpectraAre sp (uniformGrid 2 3 7 (-70, 70)) oneLine 7 7 ∧ ∀ batch ∈ batches,
      ∃ y, evaluateYbar interp (baseSelf cube (uniformStored 2 3 7)) sp batch = .ok y ∧ NoiseDrawn y := by
  obtain ⟨cube, sp, -, h, -, hdv, h5, h6, h7⟩ := ybar_demo
  obtain ⟨sp', hS, hdv'⟩ := plainSpectra_exist oneLine
  refine ⟨cube, sp', h, hS, fun batch hb => ?_⟩
  obtain ⟨y, h1, -, h2⟩ := C103_plain_partial hI h hS h5 (fun i hi => (h7 i hi).trans (hdv.trans hdv'.symm)) rfl (by show 6 ≤ 7; norm_num) rfl
    (fun _ _ => 0) (fun _ _ => 1) (fun t _ z _ k _ => by unfold oneLine; split_ifs <;> norm_num) batch hb
  exact ⟨y, h1, h2 fun _ _ _ _ => le_rfl⟩

end PKM
