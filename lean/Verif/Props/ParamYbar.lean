import Verif.ParamYbarLemmas
import Verif.Props.Ybar
import Verif.Props.Protocol

/-!
# C63: the datacube of a parametric component

`p.evaluateYbar sp batch` is the array that `component.evaluate_ybar(batch)` stores in `component.ybar`.

* `ParamIs p g m L`: the component has the ingredients `m` (C32); `m.probTXZ g c` is the probability `p(t,x,z)` of the cell,
  `normal (m.mu t x y) (m.sig t x y)` the law of the velocity given age and pixel.
* `SpectraAre sp g S nl n`: the SSPs have spectra `S t z` sampled at `nl` pixels of width `sp.dv`, transforms have length
  `n` (`n = nl` for every cube made by the constructor, `C23_spectra`).
* `continued n s` is the band-limited periodic function through the samples `s` (`Trig.lean`); `padded nl s` are the samples
  followed by zeros.

The resolution `sp.dv` is positive: `IFUCube.__init__` sets it to a bin width. There is no hypothesis on the velocity bins of the cube: unlike the base class, parametric components do not use them.
-/

open scoped Classical
open MeasureTheory ProbabilityTheory

noncomputable section

namespace PKM
open Np Component

variable {p : Param} {g : Grid} {m : Ingredients} {L : ℕ → ℕ → ℝ} {sp : Spectra} {S : ℕ → ℕ → ℕ → ℝ} {nl n : ℕ}

/-- Samples followed by zeros. -/
def padded (nl : ℕ) (s : ℕ → ℝ) (k : ℕ) : ℝ := if k < nl then s k else 0

/-- What the datacube should hold: `Σ_{t,z} p(t,x,z) ∫ S(k - v / dv; t, z) p(v|t,x) dv`. -/
def losvdConvolved (g : Grid) (m : Ingredients) (S : ℕ → ℕ → ℕ → ℝ) (nl n : ℕ) (dv : ℝ) (k x y : ℕ) : ℝ :=
  ∑ t : Fin g.nt, ∑ z : Fin g.nz, m.probTXZ g ⟨t, 0, x, y, z⟩ *
    ∫ v, continued n (padded nl (S t z)) (k - v / dv) ∂normal (m.mu t x y) (m.sig t x y)

theorem half_cast (n : ℕ) : ((Fft.half n : ℕ) : ℝ) - 1 = ((n / 2 : ℕ) : ℝ) := by
  unfold Fft.half; push_cast; ring

theorem ybarOf_eq (k x y : ℕ) : Param.ybarOf g m sp S nl n k x y =
    ∑ t : Fin g.nt, ∑ z : Fin g.nz, m.probTXZ g ⟨t, 0, x, y, z⟩ *
      Fft.irfft n (fun w => Fft.rfft n n (padded nl (S t z)) w *
        gaussFT (m.mu t x y) (m.sig t x y) (Param.freq sp n w)) k := by
  unfold Param.ybarOf Param.ybarAt Param.spaxelFT
  have e : (fun w => ∑ z ∈ Finset.range g.nz, ∑ t ∈ Finset.range g.nt,
      ((m.probTXZ g ⟨t, 0, x, y, z⟩ : ℝ) : ℂ) * (gaussFT (m.mu t x y) (m.sig t x y) (Param.freq sp n w) *
        Fft.rfft nl n (S t z) w)) = fun w => ∑ q ∈ Finset.range g.nz ×ˢ Finset.range g.nt,
      ((m.probTXZ g ⟨q.2, 0, x, y, q.1⟩ : ℝ) : ℂ) * (Fft.rfft n n (padded nl (S q.2 q.1)) w *
        gaussFT (m.mu q.2 x y) (m.sig q.2 x y) (Param.freq sp n w)) := by
    funext w
    rw [Finset.sum_product]
    refine Finset.sum_congr rfl fun z _ => Finset.sum_congr rfl fun t _ => ?_
    rw [Fft.rfft_pad, mul_comm (gaussFT _ _ _)]
    rfl
  rw [e, Fft.irfft_sum (Finset.range g.nz ×ˢ Finset.range g.nt) n (fun q => m.probTXZ g ⟨q.2, 0, x, y, q.1⟩)
    (fun q w => Fft.rfft n n (padded nl (S q.2 q.1)) w *
        gaussFT (m.mu q.2 x y) (m.sig q.2 x y) (Param.freq sp n w)), Finset.sum_product, Finset.sum_comm]
  rw [← Fin.sum_univ_eq_sum_range (fun t => ∑ z ∈ Finset.range g.nz, m.probTXZ g ⟨t, 0, x, y, z⟩ *
    Fft.irfft n (fun w => Fft.rfft n n (padded nl (S t z)) w *
        gaussFT (m.mu t x y) (m.sig t x y) (Param.freq sp n w)) k) g.nt]
  refine Finset.sum_congr rfl fun t _ => ?_
  rw [← Fin.sum_univ_eq_sum_range (fun z => m.probTXZ g ⟨t, 0, x, y, z⟩ *
    Fft.irfft n (fun w => Fft.rfft n n (padded nl (S t z)) w *
        gaussFT (m.mu t x y) (m.sig t x y) (Param.freq sp n w)) k) g.nz]

theorem freq_eq (hn : 0 < n) (w : ℕ) :
    Param.freq sp n w = 2 * Real.pi * w * ((n : ℝ) / (2 * (n / 2 : ℕ)) / sp.dv) / n := by
  have hn' : (n : ℝ) ≠ 0 := by exact_mod_cast hn.ne'
  unfold Param.freq
  rw [half_cast]
  rcases Nat.eq_zero_or_pos (n / 2) with h | h
  · simp [h]
  · have : ((n / 2 : ℕ) : ℝ) ≠ 0 := by exact_mod_cast h.ne'
    field_simp

theorem ybarOf_stretched (hn : 0 < n) (k x y : ℕ) : Param.ybarOf g m sp S nl n k x y =
    losvdConvolved g m S nl n (sp.dv * (2 * (n / 2 : ℕ) / n)) k x y := by
  have hn' : (n : ℝ) ≠ 0 := by exact_mod_cast hn.ne'
  rw [ybarOf_eq]
  unfold losvdConvolved
  refine Finset.sum_congr rfl fun t _ => Finset.sum_congr rfl fun z _ => ?_
  congr 1
  simp only [freq_eq hn]
  rw [irfft_gauss]
  congr 1
  funext v
  congr 2
  rcases Nat.eq_zero_or_pos (n / 2) with h | h
  · simp [h]
  · have : ((n / 2 : ℕ) : ℝ) ≠ 0 := by exact_mod_cast h.ne'
    field_simp

/-- All three ways of batching give the same datacube; any other value of `batch` raises `ValueError`. -/
theorem C63_batches (h : ParamIs p g m L) (hn : 0 < n) (hS : SpectraAre sp g S n n) (_hdv : 0 < sp.dv) :
    ∃ y1 y2 y3, p.evaluateYbar sp "none".toList = .ok y1 ∧ p.evaluateYbar sp "column".toList = .ok y2 ∧
      p.evaluateYbar sp "spaxel".toList = .ok y3 ∧
      y1.shape = [n, g.nx, g.ny] ∧ y2.shape = [n, g.nx, g.ny] ∧ y3.shape = [n, g.nx, g.ny] ∧
      (∀ k < n, ∀ x < g.nx, ∀ y < g.ny, ∃ r : ℝ, y1.get [k, x, y] = .fin r ∧ y2.get [k, x, y] = .fin r ∧
        y3.get [k, x, y] = .fin r) ∧
      ∀ batch, batch ∉ ["none".toList, "column".toList, "spaxel".toList] →
        p.evaluateYbar sp batch = .error .valueError := by
  obtain ⟨⟨y1, a1, b1, c1⟩, e2, e3, e4⟩ := Param.evaluateYbar_is h hn hS
  obtain ⟨y2, a2, b2, c2⟩ := e2 rfl
  obtain ⟨y3, a3, b3, c3⟩ := e3 rfl
  exact ⟨y1, y2, y3, a1, a2, a3, b1, b2, b3, fun k hk x hx y hy =>
    ⟨_, c1 k hk x hx y hy, c2 k hk x hx y hy, c3 k hk x hx y hy⟩, e4⟩

/-- With an even transform length the datacube is the integral in the documentation,
`Σ_{t,z} p(t,x,z) ∫ S(w - v; t, z) p(v|t,x) dv`, over all velocities (nothing is lost outside the velocity range of the
cube), for the band-limited continuation of the spectra. For odd lengths this is false (`C63_odd_wrong`). -/
theorem C63_convolution_partial (h : ParamIs p g m L) (hn : 0 < n) (heven : n % 2 = 0) (hS : SpectraAre sp g S nl n)
    (_hdv : 0 < sp.dv) :
    ∃ r, p.evaluateYbar sp "none".toList = .ok r ∧ r.shape = [n, g.nx, g.ny] ∧
      ∀ k < n, ∀ x < g.nx, ∀ y < g.ny, r.get [k, x, y] = .fin (losvdConvolved g m S nl n sp.dv k x y) := by
  obtain ⟨⟨r, a1, b1, c1⟩, -⟩ := Param.evaluateYbar_is h hn hS
  refine ⟨r, a1, b1, fun k hk x hx y hy => ?_⟩
  rw [c1 k hk x hx y hy]
  beta_reduce
  rw [ybarOf_stretched hn]
  have hn' : (n : ℝ) ≠ 0 := by exact_mod_cast hn.ne'
  have : (2 * ((n / 2 : ℕ) : ℝ)) = n := by
    have : 2 * (n / 2) = n := by omega
    exact_mod_cast this
  rw [this, div_self hn', mul_one]

/-- With an odd transform length the code uses frequencies that are too large by `n / (n - 1)`: the datacube is that of
a component all of whose velocities are larger by this factor. -/
theorem C63_odd (h : ParamIs p g m L) (hodd : n % 2 = 1) (hS : SpectraAre sp g S nl n)
    (_hdv : 0 < sp.dv) :
    ∃ r, p.evaluateYbar sp "none".toList = .ok r ∧ r.shape = [n, g.nx, g.ny] ∧
      ∀ k < n, ∀ x < g.nx, ∀ y < g.ny, r.get [k, x, y] =
        .fin (losvdConvolved g m S nl n (sp.dv * ((n - 1) / n)) k x y) := by
  obtain ⟨⟨r, a1, b1, c1⟩, -⟩ := Param.evaluateYbar_is h (by omega) hS
  refine ⟨r, a1, b1, fun k hk x hx y hy => ?_⟩
  rw [c1 k hk x hx y hy]
  beta_reduce
  rw [ybarOf_stretched (by omega)]
  have : (2 * ((n / 2 : ℕ) : ℝ)) = n - 1 := by
    have : 2 * (n / 2) + 1 = n := by omega
    have : (2 * ((n / 2 : ℕ) : ℝ)) + 1 = n := by exact_mod_cast this
    linarith
  rw [this]

/-- Flux conservation: the sum of each spaxel over wavelength is `Σ_{t,z} flux(t,z) p(t,x,z)`. -/
theorem C63_flux (h : ParamIs p g m L) (hn : 0 < n) (hS : SpectraAre sp g S nl n) (hnl : nl ≤ n)
    (_hdv : 0 < sp.dv) :
    ∃ r, p.evaluateYbar sp "none".toList = .ok r ∧
      ∀ x < g.nx, ∀ y < g.ny, ∑ k ∈ Finset.range n, r.get [k, x, y] =
        .fin (∑ t : Fin g.nt, ∑ z : Fin g.nz, sspFlux S nl t z * m.probTXZ g ⟨t, 0, x, y, z⟩) := by
  obtain ⟨⟨r, a1, b1, c1⟩, -⟩ := Param.evaluateYbar_is h hn hS
  refine ⟨r, a1, fun x hx y hy => ?_⟩
  rw [Finset.sum_congr rfl fun k hk => c1 k (Finset.mem_range.1 hk) x hx y hy]
  beta_reduce
  rw [Num.fin_sum]
  congr 1
  simp only [ybarOf_eq]
  rw [Finset.sum_comm]
  refine Finset.sum_congr rfl fun t _ => ?_
  rw [Finset.sum_comm]
  refine Finset.sum_congr rfl fun z _ => ?_
  rw [← Finset.mul_sum, Fft.sum_irfft hn]
  have h0 : Param.freq sp n 0 = 0 := by simp [Param.freq]
  rw [h0, gaussFT_zero, mul_one, show Fft.rfft n n (padded nl (S t z)) 0 = Fft.rfft nl n (S t z) 0 from (Fft.rfft_pad _ _ _ _).symm,
    Fft.rfft_zero _ _ _ hnl, Complex.ofReal_re]
  unfold sspFlux
  ring

/-! ### Shifts -/

theorem continued_int {n : ℕ} (hn : 0 < n) (s : ℕ → ℝ) (u : ℝ) (q : ℤ) : continued n s (u + q * n) = continued n s u := by
  have hp : Function.Periodic (continued n s) n := fun u => continued_periodic hn s u
  exact hp.int_mul q u

theorem normal_shift (mu sig a : ℝ) (f : ℝ → ℝ) (hf : Continuous f) :
    ∫ v, f v ∂normal (mu + a) sig = ∫ v, f (v + a) ∂normal mu sig := by
  unfold normal
  rw [← gaussianReal_map_add_const, integral_map (by fun_prop) hf.aestronglyMeasurable]

theorem continuous_continued (n : ℕ) (s : ℕ → ℝ) : Continuous (continued n s) := by
  unfold continued dirichlet
  fun_prop

/-- Red- and blueshifts: if all mean velocities are larger by `j` pixels (`j` any integer), the spectrum of every spaxel is
shifted by `j` pixels (circularly). Even transform lengths. -/
theorem C63_shift_partial {p' : Param} {m' : Ingredients} {L' : ℕ → ℕ → ℝ} (h : ParamIs p g m L) (h' : ParamIs p' g m' L')
    (hn : 0 < n) (heven : n % 2 = 0) (hS : SpectraAre sp g S nl n) (hdv : 0 < sp.dv) (j : ℤ)
    (hpt : m'.pt = m.pt) (hpx : m'.px = m.px) (hpz : m'.pz = m.pz) (hsig : m'.sig = m.sig)
    (hmu : ∀ t x y, m'.mu t x y = m.mu t x y + j * sp.dv) :
    ∃ r r', p.evaluateYbar sp "none".toList = .ok r ∧ p'.evaluateYbar sp "none".toList = .ok r' ∧
      ∀ k < n, ∀ k' < n, (n : ℤ) ∣ (k' : ℤ) - (k + j) → ∀ x < g.nx, ∀ y < g.ny,
        r'.get [k', x, y] = r.get [k, x, y] := by
  obtain ⟨r, a1, -, c1⟩ := C63_convolution_partial h hn heven hS hdv
  obtain ⟨r', a2, -, c2⟩ := C63_convolution_partial h' hn heven hS hdv
  refine ⟨r, r', a1, a2, fun k hk k' hk' hd x hx y hy => ?_⟩
  obtain ⟨q, hq⟩ := hd
  rw [c1 k hk x hx y hy, c2 k' hk' x hx y hy]
  congr 1
  unfold losvdConvolved
  refine Finset.sum_congr rfl fun t _ => Finset.sum_congr rfl fun z _ => ?_
  have e1 : m'.probTXZ g ⟨t, 0, x, y, z⟩ = m.probTXZ g ⟨t, 0, x, y, z⟩ := by
    simp only [Ingredients.probTXZ, Ingredients.probT, Ingredients.probX, Ingredients.probZ, hpt, hpx, hpz]
  rw [e1, hsig, hmu]
  congr 1
  have hc : Continuous fun v : ℝ => continued n (padded nl (S t z)) (k' - v / sp.dv) :=
    (continuous_continued _ _).comp (by fun_prop)
  rw [normal_shift _ _ _ _ hc]
  congr 1
  funext v
  rw [← continued_int hn (padded nl (S t z)) ((k : ℝ) - v / sp.dv) q]
  congr 1
  have hq' : (k' : ℝ) - (k + j) = n * q := by exact_mod_cast hq
  field_simp
  linear_combination sp.dv * hq'

/-! ### Odd transform lengths -/

theorem cos_root (n i : ℕ) : ((Real.cos (2 * Real.pi * i / n) : ℝ) : ℂ) = (Fft.root n i + Fft.root n (-i)) / 2 := by
  rw [Fft.root_eq_exp, Fft.root_eq_exp, Complex.ofReal_cos, Complex.cos]
  congr 2
  congr 1
  push_cast
  ring

/-- Transform of one period of a cosine. -/
theorem rfft_cos {n : ℕ} (hn : 3 ≤ n) {j : ℕ} (hj : 2 * j < n) :
    Fft.rfft n n (fun i => Real.cos (2 * Real.pi * i / n)) j = if j = 1 then (n : ℂ) / 2 else 0 := by
  rw [Fft.rfft_eq]
  have : ∀ i ∈ Finset.range n, ((Real.cos (2 * Real.pi * i / n) : ℝ) : ℂ) * Fft.root n (-(j * i)) =
      (Fft.root n ((1 - j) * i) + Fft.root n ((-1 - j) * i)) / 2 := by
    intro i _
    rw [cos_root, div_mul_eq_mul_div, add_mul, ← Fft.root_add, ← Fft.root_add]
    congr 3 <;> ring
  rw [Finset.sum_congr rfl this, ← Finset.sum_div, Finset.sum_add_distrib, Fft.sum_root (by omega), Fft.sum_root (by omega)]
  have h2 : ¬ (n : ℤ) ∣ (-1 - j) := by
    rintro ⟨q, hq⟩
    have : (n : ℤ) * (-q) = 1 + j := by linarith
    have h1 : 0 < -q := by
      by_contra hc
      have : (n : ℤ) * (-q) ≤ 0 := mul_nonpos_of_nonneg_of_nonpos (by omega) (by omega)
      omega
    nlinarith
  have h1 : (n : ℤ) ∣ (1 - j) ↔ j = 1 := by
    constructor
    · rintro ⟨q, hq⟩
      by_contra hj1
      rcases lt_trichotomy q 0 with h | h | h
      · have : (n : ℤ) * q ≤ -n := by nlinarith
        omega
      · rw [h] at hq; omega
      · have : (n : ℤ) ≤ n * q := by nlinarith
        omega
    · rintro rfl; simp
  rw [if_neg h2, add_zero]
  simp only [h1]
  split_ifs <;> simp

/-- A cosine keeps its period; its amplitude and phase are multiplied. -/
theorem irfft_cos {n : ℕ} (hn : 3 ≤ n) (hodd : n % 2 = 1) (G : ℕ → ℂ) (k : ℕ) :
    Fft.irfft n (fun w => Fft.rfft n n (fun i => Real.cos (2 * Real.pi * i / n)) w * G w) k = (G 1 * Fft.root n k).re := by
  have hn' : (n : ℝ) ≠ 0 := by exact_mod_cast (show n ≠ 0 by omega)
  unfold Fft.irfft
  beta_reduce
  rw [rfft_cos hn (by omega), if_neg (by omega), zero_mul, Complex.zero_re, zero_add]
  rw [Finset.sum_eq_single 1]
  · rw [if_neg (by omega), rfft_cos hn (by omega), if_pos rfl]
    have : ((n : ℂ) / 2 * G 1 * Fft.root n ((1 : ℕ) * k)) = ((n / 2 : ℝ) : ℂ) * (G 1 * Fft.root n k) := by
      push_cast
      rw [one_mul]
      ring
    rw [this, Complex.re_ofReal_mul]
    field_simp
  · intro j hj hj1
    have := (Finset.mem_Ico.1 hj).2
    unfold Fft.half at this
    rw [rfft_cos hn (by omega), if_neg hj1]
    simp
  · intro h
    exact absurd (Finset.mem_Ico.2 ⟨le_rfl, by unfold Fft.half; omega⟩) h

theorem norm_gaussFT (mu sig w : ℝ) : ‖gaussFT mu sig w‖ = Real.exp (-(1 / 2) * (sig * w) ^ 2) := by
  unfold gaussFT
  rw [Complex.norm_exp]
  congr 1
  have : (-Complex.I * mu * w - 0.5 * (sig * w) ^ 2 : ℂ) =
      ((-(1 / 2) * (sig * w) ^ 2 : ℝ) : ℂ) + ((-(mu * w) : ℝ) : ℂ) * Complex.I := by
    push_cast
    ring
  rw [this, Complex.add_re, Complex.ofReal_re, Complex.re_ofReal_mul, Complex.I_re, mul_zero, add_zero]

/-- For odd transform lengths `C63_convolution_partial` fails: for every component, every odd `n ≥ 3`, every resolution and
every pixel with stars there are SSP spectra for which the datacube differs from the integral in the documentation. -/
theorem C63_odd_wrong (h : ParamIs p g m L) (hn : 3 ≤ n) (hodd : n % 2 = 1) {dv : ℝ} (hdv : 0 < dv)
    {c : Cell} (hc : g.Has c) (hp : 0 < m.probTXZ g c) :
    ∃ sp S r, SpectraAre sp g S n n ∧ sp.dv = dv ∧ p.evaluateYbar sp "none".toList = .ok r ∧
      ∃ k < n, r.get [k, c.x, c.y] ≠ .fin (losvdConvolved g m S n n dv k c.x c.y) := by
  have hn0 : 0 < n := by omega
  have hnR : (n : ℝ) ≠ 0 := by exact_mod_cast hn0.ne'
  have hn1 : (1 : ℝ) < n := by exact_mod_cast (show 1 < n by omega)
  set S : ℕ → ℕ → ℕ → ℝ := fun t z k => if t = c.t ∧ z = c.z then Real.cos (2 * Real.pi * k / n) else 0 with hSdef
  obtain ⟨sp, -, hS, hsp⟩ := fourier_is (g := g) (S := S) (nl := n) dv
    (Xw := ⟨[n, g.nz * g.nt], fun i => S (i.getD 1 0 % g.nt) (i.getD 1 0 / g.nt) (i.getD 0 0)⟩) rfl (by
      intro k hk t ht z hz
      simp only [List.getD_cons_succ, List.getD_cons_zero]
      have e1 : (z * g.nt + t) % g.nt = t := by
        rw [Nat.add_comm, Nat.add_mul_mod_self_right, Nat.mod_eq_of_lt ht]
      have e2 : (z * g.nt + t) / g.nt = z := by
        rw [Nat.add_comm, Nat.add_mul_div_right _ _ (by omega), Nat.div_eq_of_lt ht, Nat.zero_add]
      rw [e1, e2])
  obtain ⟨⟨r, a1, b1, c1⟩, -⟩ := Param.evaluateYbar_is h hn0 hS
  refine ⟨sp, S, r, hS, hsp, a1, ?_⟩
  by_contra hcon
  push Not at hcon
  obtain ⟨h1, h2, h3, h4, h5⟩ := hc
  -- both sides, for any frequency scale
  have key : ∀ (F : ℕ → ℝ) (k : ℕ), (∑ t : Fin g.nt, ∑ z : Fin g.nz, m.probTXZ g ⟨t, 0, c.x, c.y, z⟩ *
      Fft.irfft n (fun w => Fft.rfft n n (padded n (S t z)) w * gaussFT (m.mu t c.x c.y) (m.sig t c.x c.y) (F w)) k) =
      m.probTXZ g c * (gaussFT (m.mu c.t c.x c.y) (m.sig c.t c.x c.y) (F 1) * Fft.root n k).re := by
    intro F k
    have hz : ∀ (t z : ℕ), ¬ (t = c.t ∧ z = c.z) → Fft.irfft n (fun w => Fft.rfft n n (padded n (S t z)) w *
        gaussFT (m.mu t c.x c.y) (m.sig t c.x c.y) (F w)) k = 0 := by
      intro t z htz
      have : padded n (S t z) = fun _ => 0 := by
        funext i
        simp [padded, hSdef, htz]
      rw [this]
      simp [Fft.rfft, Fft.irfft]
    rw [Finset.sum_eq_single (⟨c.t, h1⟩ : Fin g.nt), Finset.sum_eq_single (⟨c.z, h5⟩ : Fin g.nz)]
    · have : ∀ w, Fft.rfft n n (padded n (S c.t c.z)) w = Fft.rfft n n (fun i => Real.cos (2 * Real.pi * i / n)) w := by
        intro w
        refine rfft_congr (fun j hj => ?_) w
        simp [padded, hj, hSdef]
      simp only [this]
      rw [irfft_cos hn hodd (fun w => gaussFT (m.mu c.t c.x c.y) (m.sig c.t c.x c.y) (F w))]
      rfl
    · intro z _ hz'
      rw [hz, mul_zero]
      rintro ⟨-, e⟩
      exact hz' (Fin.ext e)
    · intro hn; exact absurd (Finset.mem_univ _) hn
    · intro t _ ht'
      refine Finset.sum_eq_zero fun z _ => ?_
      rw [hz, mul_zero]
      rintro ⟨e, -⟩
      exact ht' (Fin.ext e)
    · intro hn; exact absurd (Finset.mem_univ _) hn
  have right : ∀ k : ℕ, losvdConvolved g m S n n dv k c.x c.y =
      m.probTXZ g c * (gaussFT (m.mu c.t c.x c.y) (m.sig c.t c.x c.y) (2 * Real.pi * (1 : ℕ) * (1 / dv) / n) * Fft.root n k).re := by
    intro k
    rw [← key (fun w => 2 * Real.pi * w * (1 / dv) / n) k]
    unfold losvdConvolved
    refine Finset.sum_congr rfl fun t _ => Finset.sum_congr rfl fun z _ => ?_
    rw [irfft_gauss]
    congr 2
    funext v
    congr 1
    ring
  have left : ∀ k : ℕ, Param.ybarOf g m sp S n n k c.x c.y =
      m.probTXZ g c * (gaussFT (m.mu c.t c.x c.y) (m.sig c.t c.x c.y) (Param.freq sp n 1) * Fft.root n k).re := by
    intro k
    rw [ybarOf_eq, key (Param.freq sp n) k]
  set A := gaussFT (m.mu c.t c.x c.y) (m.sig c.t c.x c.y) (Param.freq sp n 1)
  set B := gaussFT (m.mu c.t c.x c.y) (m.sig c.t c.x c.y) (2 * Real.pi * (1 : ℕ) * (1 / dv) / n)
  have hk : ∀ k < n, (A * Fft.root n k).re = (B * Fft.root n k).re := by
    intro k hk
    have e := hcon k hk
    rw [c1 k hk c.x h3 c.y h4] at e
    have e := Num.fin_injective e
    rw [left, right] at e
    exact mul_left_cancel₀ hp.ne' e
  have k0 := hk 0 hn0
  have k1 := hk 1 (by omega)
  simp only [Nat.cast_zero, Fft.root_zero, mul_one] at k0
  rw [Fft.root_eq_exp, Complex.mul_re, Complex.mul_re, Complex.exp_ofReal_mul_I_re, Complex.exp_ofReal_mul_I_im, k0] at k1
  have hsin : Real.sin (2 * Real.pi * ((1 : ℕ) : ℤ) / n) ≠ 0 := by
    have h3 : (3 : ℝ) ≤ n := by exact_mod_cast hn
    refine (Real.sin_pos_of_pos_of_lt_pi ?_ ?_).ne'
    · push_cast
      have := Real.pi_pos
      positivity
    · push_cast
      rw [div_lt_iff₀ (by linarith)]
      nlinarith [Real.pi_pos]
  have kim : A.im = B.im := by
    have : (A.im - B.im) * Real.sin (2 * Real.pi * ((1 : ℕ) : ℤ) / n) = 0 := by linarith
    rcases mul_eq_zero.1 this with h | h
    · linarith
    · exact absurd h hsin
  have hAB : A = B := Complex.ext k0 kim
  have hnorm := congrArg (fun z : ℂ => ‖z‖) hAB
  simp only [A, B, norm_gaussFT] at hnorm
  have hexp := Real.exp_injective hnorm
  have hsig := h.norm.sig c.t c.x c.y
  have hf : Param.freq sp n 1 = 2 * Real.pi / ((n - 1) * dv) := by
    unfold Param.freq
    rw [half_cast, hsp]
    have : ((n / 2 : ℕ) : ℝ) = (n - 1) / 2 := by
      have : 2 * (n / 2) + 1 = n := by omega
      have : (2 * ((n / 2 : ℕ) : ℝ)) + 1 = n := by exact_mod_cast this
      linarith
    rw [this]
    have : (n : ℝ) - 1 ≠ 0 := by linarith
    push_cast
    field_simp
  have hlt : 2 * Real.pi * ((1 : ℕ) : ℝ) * (1 / dv) / n < Param.freq sp n 1 := by
    rw [hf]
    push_cast
    have e : 2 * Real.pi * 1 * (1 / dv) / n = 2 * Real.pi / (n * dv) := by field_simp
    rw [e]
    apply div_lt_div_of_pos_left (by have := Real.pi_pos; positivity) (mul_pos (by linarith) hdv)
    nlinarith
  have hpos : 0 < 2 * Real.pi * ((1 : ℕ) : ℝ) * (1 / dv) / n := by
    have := Real.pi_pos
    have : (0 : ℝ) < n := by linarith
    positivity
  have : (m.sig c.t c.x c.y * (2 * Real.pi * ((1 : ℕ) : ℝ) * (1 / dv) / n)) ^ 2 <
      (m.sig c.t c.x c.y * Param.freq sp n 1) ^ 2 := by
    apply pow_lt_pow_left₀ (mul_lt_mul_of_pos_left hlt hsig) (mul_pos hsig hpos).le (by norm_num)
  linarith

/-! ### The hypotheses are met -/

/-- Spectra for the demonstration grid. -/
theorem demoSpectra_exist (n : ℕ) : ∃ sp, SpectraAre sp demoGrid (fun t z k => (t : ℝ) + 2 * z + k) n n ∧ sp.dv = 100 := by
  obtain ⟨sp, -, h1, h2⟩ := fourier_is (g := demoGrid) (S := fun t z k => (t : ℝ) + 2 * z + k) (nl := n) 100
    (Xw := ⟨[n, demoGrid.nz * demoGrid.nt], fun i => ((i.getD 1 0 % demoGrid.nt : ℕ) : ℝ) +
      2 * ((i.getD 1 0 / demoGrid.nt : ℕ) : ℝ) + ((i.getD 0 0 : ℕ) : ℝ)⟩) rfl (by
      intro k hk t ht z hz
      simp only [List.getD_cons_succ, List.getD_cons_zero]
      have e1 : (z * demoGrid.nt + t) % demoGrid.nt = t := by
        rw [Nat.add_comm, Nat.add_mul_mod_self_right, Nat.mod_eq_of_lt ht]
      have e2 : (z * demoGrid.nt + t) / demoGrid.nt = z := by
        rw [Nat.add_comm, Nat.add_mul_div_right _ _ (by omega), Nat.div_eq_of_lt ht, Nat.zero_add]
      rw [e1, e2])
  exact ⟨sp, h1, h2⟩

/-- The hypotheses of `C63_batches`, `C63_convolution_partial`, `C63_flux` (here `n = 8`) and `C63_odd` (`n = 7`) are met by a growing
disk on the demonstration cube. -/
example : ∃ p m sp sp' S, ParamIs p demoGrid m demoL ∧ SpectraAre sp demoGrid S 8 8 ∧ SpectraAre sp' demoGrid S 7 7 ∧
    0 < sp.dv ∧ 0 < sp'.dv := by
  obtain ⟨p, m, h, -⟩ := demoDisk_exists 1
  obtain ⟨sp, h1, h2⟩ := demoSpectra_exist 8
  obtain ⟨sp', h1', h2'⟩ := demoSpectra_exist 7
  exact ⟨p, m, sp, sp', _, h, h1, h1', by rw [h2]; norm_num, by rw [h2']; norm_num⟩

/-- The hypotheses of `C63_odd_wrong`: a pixel with stars. -/
example : ∃ p m c, ParamIs p demoGrid m demoL ∧ demoGrid.Has c ∧ 0 < m.probTXZ demoGrid c := by
  obtain ⟨p, m, h, hs, -⟩ := demoDisk_exists 1
  refine ⟨p, m, ?_⟩
  by_contra hcon
  push Not at hcon
  have : Ingredients.sumTXZ demoGrid (fun d => demoL d.t d.z * m.probTXZ demoGrid d) ≤ 0 := by
    refine Finset.sum_nonpos fun t _ => Finset.sum_nonpos fun x _ => Finset.sum_nonpos fun y _ => Finset.sum_nonpos fun z _ => ?_
    exact mul_nonpos_of_nonneg_of_nonpos (h.lightNonneg _ _)
      (hcon ⟨t, 0, x, y, z⟩ h ⟨t.2, h.proper.nv, x.2, y.2, z.2⟩)
  exact absurd hs (not_lt.2 this)

/-- The hypotheses of `C63_shift_partial`: a growing disk, and one that moves away faster by three pixels. -/
example : ∃ p m p' m' sp S, ParamIs p demoGrid m demoL ∧ ParamIs p' demoGrid m' demoL ∧ SpectraAre sp demoGrid S 8 8 ∧
    0 < sp.dv ∧ m'.pt = m.pt ∧ m'.px = m.px ∧ m'.pz = m.pz ∧ m'.sig = m.sig ∧
    ∀ t x y, m'.mu t x y = m.mu t x y + (3 : ℤ) * sp.dv := by
  obtain ⟨p, m, h, -⟩ := demoDisk_exists 1
  obtain ⟨sp, h1, h2⟩ := demoSpectra_exist 8
  obtain ⟨M, hM1, hM2, hM3⟩ := h.muV
  refine ⟨p, m, { p with muV := some (map (fun a => a + .fin (3 * sp.dv)) M) },
    { m with mu := fun t x y => m.mu t x y + 3 * sp.dv }, sp, _, h, ?_, h1, by rw [h2]; norm_num, rfl, rfl, rfl, rfl,
    fun t x y => by push_cast; rfl⟩
  exact ⟨h.proper, h.cubeIs, ⟨h.norm.pt, h.norm.px, h.norm.pz, h.norm.sig, h.norm.sumT, h.norm.sumX, h.norm.sumZ⟩,
    h.logPt, h.logPxt, h.logPztx, ⟨_, rfl, hM2, fun c hc => by simp only [map]; rw [hM3 c hc]; rfl⟩, h.sigV, h.light,
    h.lightNonneg⟩

end PKM
