import Verif.YbarLemmas
import Verif.Dft
import Verif.Props.LMoments

/-!
# C23–C26: the datacube of a plain component

`evaluateYbar interp (baseSelf cube stored) sp batch` is the array that
`component.evaluate_ybar(batch)` stores in `component.ybar` (or the exception it raises).

* `BaseIs cube stored g ρ L`: the component has density `ρ` on the bins of the grid `g`.
* `SpectraAre sp g S nl n`: the SSP with age bin `t` and metallicity bin `z` has spectrum
  `S t z 0 .. S t z (nl-1)` in equally spaced log wavelength pixels, and transforms of length `n`.
  `C23_spectra` shows that `IFUCube.__init__` establishes it with `n = nl`.
* `ZeroBin nv e v0`: `v0` is the first velocity bin with centre 0 (within `1e-8`).
* `VelocityOk`: the bins pass the validation.
* `interp m Y x` is the value at `x` of the interpolant through `m` equally spaced points on `[0,1]`.
  What is assumed about it is in `Interp`; each theorem names the parts it uses.
-/

open scoped Classical

noncomputable section

namespace PKM
open Np Component

/-- What is used about the cubic interpolation of scipy: the interpolant depends on the given points
only (`loc`), goes through them (`nodes`), is linear in them (`linear`) and reproduces constants
(`const`). -/
structure Interp (interp : ℕ → (ℕ → ℂ) → ℝ → ℂ) : Prop where
  loc : InterpLocal interp
  nodes : ∀ m Y j, 4 ≤ m → j < m → interp m Y ((j : ℝ) / ((m : ℝ) - 1)) = Y j
  linear : ∀ m Y Y' (a b : ℂ) x, interp m (fun j => a * Y j + b * Y' j) x = a * interp m Y x + b * interp m Y' x
  const : ∀ m c x, interp m (fun _ => c) x = c

variable {g : Grid} {cube : IFUCube} {stored : Arr Num} {ρ : Cell → ℝ} {L : ℕ → ℕ → ℝ} {sp : Spectra}
  {S : ℕ → ℕ → ℕ → ℝ} {nl n v0 : ℕ} {interp : ℕ → (ℕ → ℂ) → ℝ → ℂ}

/-! ### C23 -/

/-- The spectra of a cube built by the constructor: `_calculate_fourier_transform()` without padding uses
transforms as long as the spectra, for every array of spectra stored with the age index running
fastest. -/
theorem C23_spectra {Xw : Arr ℝ} (dv : ℝ) (hs : Xw.shape = [nl, g.nz * g.nt])
    (hX : ∀ k < nl, ∀ t < g.nt, ∀ z < g.nz, Xw.get [k, z * g.nt + t] = S t z k) :
    ∃ sp, Spectra.fourier dv Xw [g.nz, g.nt] none = .ok sp ∧ SpectraAre sp g S nl nl ∧ sp.dv = dv :=
  fourier_is dv hs hX

/-- All three ways of batching give the same datacube, entry by entry; any other value of `batch` raises
`ValueError`. -/
theorem C23_batches (hI : Interp interp) (h : BaseIs cube stored g ρ L) (hn : 0 < n)
    (hS : SpectraAre sp g S n n) (h0 : ZeroBin g.nv g.v v0) (hv : VelocityOk g.nv g.v sp.dv v0)
    (hm : 6 ≤ g.nv) :
    ∃ y1 y2 y3, evaluateYbar interp (baseSelf cube stored) sp "none".toList = .ok y1 ∧
      evaluateYbar interp (baseSelf cube stored) sp "column".toList = .ok y2 ∧
      evaluateYbar interp (baseSelf cube stored) sp "spaxel".toList = .ok y3 ∧
      y1.shape = [n, g.nx, g.ny] ∧ y2.shape = [n, g.nx, g.ny] ∧ y3.shape = [n, g.nx, g.ny] ∧
      (∀ k < n, ∀ x < g.nx, ∀ y < g.ny, ∃ r : ℝ, y1.get [k, x, y] = .fin r ∧ y2.get [k, x, y] = .fin r ∧
        y3.get [k, x, y] = .fin r) ∧
      ∀ batch, batch ∉ ["none".toList, "column".toList, "spaxel".toList] →
        evaluateYbar interp (baseSelf cube stored) sp batch = .error .valueError := by
  obtain ⟨⟨y1, a1, b1, c1⟩, e2, e3, e4⟩ := (evaluateYbar_is hI.loc h hn hS h0 hv).2 (by unfold Fft.half; omega)
  obtain ⟨y2, a2, b2, c2⟩ := e2 rfl
  obtain ⟨y3, a3, b3, c3⟩ := e3 rfl
  exact ⟨y1, y2, y3, a1, a2, a3, b1, b2, b3, fun k hk x hx y hy =>
    ⟨_, c1 k hk x hx y hy, c2 k hk x hx y hy, c3 k hk x hx y hy⟩, e4⟩

/-- Failures do not depend on the batching either: with fewer than six velocity bins (the cubic
interpolation needs four frequencies), or a velocity grid that is not accepted, every value of
`batch` raises the same exception. -/
theorem C23_failures (hI : Interp interp) (h : BaseIs cube stored g ρ L) (hn : 0 < n)
    (hS : SpectraAre sp g S nl n) :
    (g.nv < 6 → ZeroBin g.nv g.v v0 → VelocityOk g.nv g.v sp.dv v0 → ∀ batch,
      evaluateYbar interp (baseSelf cube stored) sp batch = .error .valueError) ∧
    (ZeroBin g.nv g.v v0 → ¬ VelocityOk g.nv g.v sp.dv v0 → ∀ batch,
      evaluateYbar interp (baseSelf cube stored) sp batch = .error .valueError) ∧
    ((∀ i < g.nv, 1 / 10 ^ 8 < |centre g.v i|) → ∀ batch,
      evaluateYbar interp (baseSelf cube stored) sp batch = .error .indexError) :=
  ⟨fun h6 h0 hv => (evaluateYbar_is hI.loc h hn hS h0 hv).1 (by unfold Fft.half; omega),
    (evaluateYbar_invalid (s := baseSelf cube stored) h.cubeIs).1 v0,
    (evaluateYbar_invalid (s := baseSelf cube stored) h.cubeIs).2⟩

/-! ### C25 -/

/-- The velocity check in terms of the bin edges, for every velocity grid (ascending or not):
`IndexError` iff no bin centre is zero within `1e-8`; otherwise accepted iff all bin widths agree
with the resolution `dv` of the SSPs within numpy's tolerance, the centres ascend, and the first bin at
zero is the middle one (`nv // 2`); `ValueError` otherwise. -/
theorem C25_validation {vE : Arr Num} {n : ℕ} {e : ℕ → ℝ} (h : Is1 vE (n + 1) e) (dv : ℝ) :
    (validateVEdg vE dv = .error .indexError ↔ ∀ i < n, 1 / 10 ^ 8 < |centre e i|) ∧
    (validateVEdg vE dv = .ok () ↔
      ∃ v0 < n, |centre e v0| ≤ 1 / 10 ^ 8 ∧ (∀ i < v0, 1 / 10 ^ 8 < |centre e i|) ∧ v0 = n / 2 ∧
        (∀ i, i + 1 < n → centre e i ≤ centre e (i + 1)) ∧
        ∀ i < n, |(e (i + 1) - e i) - dv| ≤ 1 / 10 ^ 8 + 1 / 10 ^ 5 * |dv|) ∧
    (validateVEdg vE dv = .ok () ∨ validateVEdg vE dv = .error .indexError ∨
      validateVEdg vE dv = .error .valueError) := by
  obtain ⟨h1, h2⟩ := validateVEdg_is h dv
  by_cases hz : ∀ i < n, 1 / 10 ^ 8 < |centre e i|
  · refine ⟨⟨fun _ => hz, h2⟩, ?_, Or.inr (Or.inl (h2 hz))⟩
    rw [h2 hz]
    simp only [reduceCtorEq, false_iff, not_exists, not_and]
    intro v0 hv0 hc
    exact absurd hc (not_le.2 (hz v0 hv0))
  · have hex : ∃ v0, v0 < n ∧ |centre e v0| ≤ 1 / 10 ^ 8 := by
      by_contra hc
      apply hz
      intro i hi
      by_contra hl
      exact hc ⟨i, hi, not_lt.1 hl⟩
    have hZ : ZeroBin n e (Nat.find hex) := ⟨(Nat.find_spec hex).1, (Nat.find_spec hex).2, fun i hi => by
      have := Nat.find_min hex hi
      have hlt := (Nat.find_spec hex).1
      by_contra hl
      exact this ⟨by omega, not_lt.1 hl⟩⟩
    have e1 := h1 _ hZ
    refine ⟨⟨fun h => ?_, h2⟩, ⟨fun h => ?_, ?_⟩, ?_⟩
    · rw [e1] at h
      split_ifs at h
      injection h with h
      exact absurd h (by decide)
    · rw [e1] at h
      split_ifs at h with hok
      exact ⟨_, hZ.1, hZ.2.1, hZ.2.2, hok.2.2, hok.2.1, hok.1⟩
    · rintro ⟨w, a, b, c, d, f, q⟩
      rw [h1 w ⟨a, b, c⟩, if_pos ⟨q, f, d⟩]
    · rw [e1]
      split_ifs
      · exact Or.inl rfl
      · exact Or.inr (Or.inr rfl)

/-- On a cube built with `nv` bins on the symmetric range `(-a, a)` and its own SSP resolution: an odd
number of bins is accepted, an even number raises `IndexError` (if the bins are wider than `2e-8`).
The constructor defaults (200 bins on ±1000) fall in the second case. -/
theorem C25_symmetric {s : SSPs} {nt nz : ℕ} {t z : ℕ → ℝ} (hs : SspsAre s nt nz t z)
    (nx ny nv : ℕ) (hx : 0 < nx) (hy : 0 < ny) (hv : 0 < nv) (x1rng x2rng : ℝ × ℝ) {a : ℝ} (ha : 0 < a)
    (ha' : 1 / 10 ^ 8 < a / nv) :
    ∃ c, IFUCube.init s nx ny nv x1rng x2rng (-a, a) = .ok c ∧
      (nv % 2 = 1 → validateVEdg c.vEdg (2 * a / nv) = .ok ()) ∧
      (nv % 2 = 0 → validateVEdg c.vEdg (2 * a / nv) = .error .indexError) := by
  obtain ⟨c, h1, h2, -⟩ := C03_constructor hs nx ny nv hx hy hv x1rng x2rng (-a, a)
  have hn : (0 : ℝ) < nv := by exact_mod_cast hv
  have hce : ∀ i : ℕ, centre (evenEdges (-a, a) nv) i = (2 * (i : ℝ) + 1 - nv) * (a / nv) := by
    intro i
    simp only [centre, evenEdges]
    push_cast
    field_simp
    ring
  have hbig : ∀ i : ℕ, 2 * i + 1 ≠ nv → 1 / 10 ^ 8 < |centre (evenEdges (-a, a) nv) i| := by
    intro i hi
    rw [hce, abs_mul, abs_of_pos (div_pos ha hn)]
    have : (1 : ℝ) ≤ |2 * (i : ℝ) + 1 - nv| := by
      have : (1 : ℤ) ≤ |2 * (i : ℤ) + 1 - nv| := by
        rcases le_or_gt 0 (2 * (i : ℤ) + 1 - nv) with hp | hp
        · rw [abs_of_nonneg hp]; omega
        · rw [abs_of_neg hp]; omega
      exact_mod_cast this
    nlinarith [div_pos ha hn]
  have V := C25_validation h2.vEdg (2 * a / nv)
  refine ⟨c, h1, fun hodd => V.2.1.2 ⟨nv / 2, by show nv / 2 < nv; omega, ?_, ?_, rfl, ?_, ?_⟩,
    fun heven => V.1.2 fun i _ => hbig i (by omega)⟩
  · show |centre (evenEdges (-a, a) nv) (nv / 2)| ≤ _
    rw [hce]
    have : (2 * ((nv / 2 : ℕ) : ℝ) + 1 - nv) = 0 := by
      have : 2 * (nv / 2) + 1 = nv := by omega
      have : (2 * ((nv / 2 : ℕ) : ℝ) + 1) = nv := by exact_mod_cast this
      linarith
    rw [this]
    norm_num
  · intro i hi
    exact hbig i (by omega)
  · intro i _
    show centre (evenEdges (-a, a) nv) i ≤ centre (evenEdges (-a, a) nv) (i + 1)
    rw [hce, hce]
    push_cast
    nlinarith [div_pos ha hn]
  · intro i _
    show |width (evenEdges (-a, a) nv) i - _| ≤ _
    rw [width_even]
    have : (a - -a) / (nv : ℝ) - 2 * a / nv = 0 := by ring
    simp only [this, abs_zero]
    positivity

/-- With an even number of bins the range has to be shifted by half a bin: bins of width `d` from
`-(nv+1)/2 d` to `(nv-1)/2 d` are accepted. -/
theorem C25_even {s : SSPs} {nt nz : ℕ} {t z : ℕ → ℝ} (hs : SspsAre s nt nz t z)
    (nx ny nv : ℕ) (hx : 0 < nx) (hy : 0 < ny) (hv : 0 < nv) (x1rng x2rng : ℝ × ℝ) {d : ℝ}
    (hd : 1 / 10 ^ 8 < d) (heven : nv % 2 = 0) :
    ∃ c, IFUCube.init s nx ny nv x1rng x2rng (-((nv + 1) / 2 * d), (nv - 1) / 2 * d) = .ok c ∧
      validateVEdg c.vEdg d = .ok () := by
  obtain ⟨c, h1, h2, -⟩ := C03_constructor hs nx ny nv hx hy hv x1rng x2rng (-((nv + 1) / 2 * d), (nv - 1) / 2 * d)
  have hn : (0 : ℝ) < nv := by exact_mod_cast hv
  have hd0 : 0 < d := lt_trans (by norm_num) hd
  have hce : ∀ i : ℕ, centre (evenEdges (-((nv + 1) / 2 * d), (nv - 1) / 2 * d) nv) i = ((i : ℝ) - nv / 2) * d := by
    intro i
    simp only [centre, evenEdges]
    push_cast
    field_simp
    ring
  have V := C25_validation h2.vEdg d
  have hhalf : (((nv / 2 : ℕ) : ℝ)) = nv / 2 := by
    have : 2 * (nv / 2) = nv := by omega
    have : (2 * ((nv / 2 : ℕ) : ℝ)) = nv := by exact_mod_cast this
    linarith
  refine ⟨c, h1, V.2.1.2 ⟨nv / 2, by show nv / 2 < nv; omega, ?_, ?_, rfl, ?_, ?_⟩⟩
  · show |centre (evenEdges _ nv) (nv / 2)| ≤ _
    rw [hce, hhalf]
    norm_num
  · intro i hi
    show _ < |centre (evenEdges _ nv) i|
    have hi' : (i : ℝ) + 1 ≤ nv / 2 := by rw [← hhalf]; exact_mod_cast hi
    rw [hce, abs_mul, abs_of_pos hd0, abs_of_neg (by linarith)]
    nlinarith
  · intro i _
    show centre (evenEdges _ nv) i ≤ centre (evenEdges _ nv) (i + 1)
    rw [hce, hce]
    push_cast
    nlinarith
  · intro i _
    show |width (evenEdges _ nv) i - _| ≤ _
    rw [width_even]
    have : ((nv - 1) / 2 * d - -((nv + 1) / 2 * d)) / (nv : ℝ) - d = 0 := by
      field_simp
      ring
    simp only [this, abs_zero]
    positivity

/-! ### C24 -/

/-- Total flux of an SSP. -/
def sspFlux (S : ℕ → ℕ → ℕ → ℝ) (nl t z : ℕ) : ℝ := ∑ k ∈ Finset.range nl, S t z k

theorem marg_txz {P : Cell → ℝ} {t x y z : ℕ} (ht : t < g.nt) (hx : x < g.nx) (hy : y < g.ny) (hz : z < g.nz)
    (v : ℕ) : g.marg P ['t','x','z'] ⟨t, v, x, y, z⟩ = ∑ v : Fin g.nv, P ⟨t, v, x, y, z⟩ := by
  have hcoord : ∀ d : Cell, coords ['t','x','z'] d = coords ['t','x','z'] ⟨t, v, x, y, z⟩ ↔
      d.t = t ∧ d.x = x ∧ d.y = y ∧ d.z = z := by
    intro d; simp [coords, coord1]
  unfold Grid.marg Grid.sumCells
  simp only [hcoord]
  rw [Finset.sum_eq_single (⟨t, ht⟩ : Fin g.nt)]
  · refine Finset.sum_congr rfl fun v _ => ?_
    rw [Finset.sum_eq_single (⟨x, hx⟩ : Fin g.nx), Finset.sum_eq_single (⟨y, hy⟩ : Fin g.ny),
      Finset.sum_eq_single (⟨z, hz⟩ : Fin g.nz), if_pos ⟨rfl, rfl, rfl, rfl⟩]
    · intro i _ hi
      rw [if_neg]
      rintro ⟨-, -, -, h⟩
      exact hi (Fin.ext h)
    · intro hn; exact absurd (Finset.mem_univ _) hn
    · intro i _ hi
      refine Finset.sum_eq_zero fun _ _ => ?_
      rw [if_neg]
      rintro ⟨-, -, h, -⟩
      exact hi (Fin.ext h)
    · intro hn; exact absurd (Finset.mem_univ _) hn
    · intro i _ hi
      refine Finset.sum_eq_zero fun _ _ => Finset.sum_eq_zero fun _ _ => ?_
      rw [if_neg]
      rintro ⟨-, h, -⟩
      exact hi (Fin.ext h)
    · intro hn; exact absurd (Finset.mem_univ _) hn
  · intro i _ hi
    refine Finset.sum_eq_zero fun _ _ => Finset.sum_eq_zero fun _ _ => Finset.sum_eq_zero fun _ _ =>
      Finset.sum_eq_zero fun _ _ => ?_
    rw [if_neg]
    rintro ⟨h, -⟩
    exact hi (Fin.ext h)
  · intro hn; exact absurd (Finset.mem_univ _) hn

theorem sum_roll {nv : ℕ} (hv : 0 < nv) (f : ℕ → ℝ) (v0 : ℕ) :
    ∑ i ∈ Finset.range nv, f ((i + v0) % nv) = ∑ v : Fin nv, f v := by
  rw [Fin.sum_univ_eq_sum_range]
  refine Finset.sum_nbij' (fun k => (k + v0) % nv) (fun k => (k + (nv - v0 % nv)) % nv) ?_ ?_ ?_ ?_ ?_
  · intro a _; exact Finset.mem_range.2 (Nat.mod_lt _ hv)
  · intro a _; exact Finset.mem_range.2 (Nat.mod_lt _ hv)
  · intro a ha
    have ha := Finset.mem_range.1 ha
    have h1 := Nat.mod_lt v0 hv
    show ((a + v0) % nv + (nv - v0 % nv)) % nv = a
    have : ((a + v0) % nv + (nv - v0 % nv)) % nv = (a + v0 % nv + (nv - v0 % nv)) % nv := by
      rw [Nat.mod_add_mod, Nat.add_right_comm, ← Nat.add_mod_mod]
      congr 1
      omega
    rw [this, show a + v0 % nv + (nv - v0 % nv) = a + nv by omega, Nat.add_mod_right, Nat.mod_eq_of_lt ha]
  · intro a ha
    have ha := Finset.mem_range.1 ha
    have h1 := Nat.mod_lt v0 hv
    show ((a + (nv - v0 % nv)) % nv + v0) % nv = a
    have : ((a + (nv - v0 % nv)) % nv + v0) % nv = (a + (nv - v0 % nv) + v0 % nv) % nv := by
      rw [Nat.mod_add_mod, Nat.add_mod_mod]
    rw [this, show a + (nv - v0 % nv) + v0 % nv = a + nv by omega, Nat.add_mod_right, Nat.mod_eq_of_lt ha]
  · intro a _; rfl

/-- Flux conservation in one spaxel: the sum of the datacube over wavelength is the sum over `t`, `z` of
the flux of the SSP times `p(t,x,z)`, the velocity integral being taken with the resolution `dv` of
the SSPs. -/
theorem C24_flux_dv (hI : Interp interp) (h : BaseIs cube stored g ρ L) (hn : 0 < n)
    (hS : SpectraAre sp g S nl n) (hnl : nl ≤ n) (h0 : ZeroBin g.nv g.v v0)
    (hv : VelocityOk g.nv g.v sp.dv v0) (hm : 6 ≤ g.nv) :
    ∃ r, evaluateYbar interp (baseSelf cube stored) sp "none".toList = .ok r ∧
      ∀ x < g.nx, ∀ y < g.ny, ∑ k ∈ Finset.range n, r.get [k, x, y] =
        .fin (∑ t : Fin g.nt, ∑ z : Fin g.nz, sspFlux S nl t z *
          ((∑ v : Fin g.nv, ρ ⟨t, v, x, y, z⟩ * sp.dv) *
            (width g.t t * width g.z z * width g.x x * width g.y y))) := by
  have hhalf : 4 ≤ Fft.half g.nv := by unfold Fft.half; omega
  obtain ⟨⟨r, hr, hr1, hr2⟩, -⟩ := (evaluateYbar_is hI.loc h hn hS h0 hv).2 hhalf
  refine ⟨r, hr, fun x hx y hy => ?_⟩
  rw [Finset.sum_congr rfl fun k hk => hr2 k (Finset.mem_range.1 hk) x hx y hy]
  beta_reduce
  rw [Num.fin_sum]
  congr 1
  simp only [ybarFT_eq]
  rw [← Finset.sum_mul, ← Finset.sum_mul, Finset.sum_comm]
  simp only [Finset.sum_mul]
  refine Finset.sum_congr rfl fun t _ => ?_
  rw [Finset.sum_comm]
  refine Finset.sum_congr rfl fun z _ => ?_
  have e0 : interp (Fft.half g.nv)
      (fun j => Fft.rfft g.nv g.nv (fun i => ρ ⟨t, (i + v0) % g.nv, x, y, z⟩) j * (sp.dv : ℂ))
      (((0 : ℕ) : ℝ) / ((Fft.half n : ℕ) - 1 : ℝ)) = ((∑ v : Fin g.nv, ρ ⟨t, v, x, y, z⟩ * sp.dv : ℝ) : ℂ) := by
    have := hI.nodes (Fft.half g.nv)
      (fun j => Fft.rfft g.nv g.nv (fun i => ρ ⟨t, (i + v0) % g.nv, x, y, z⟩) j * (sp.dv : ℂ)) 0 hhalf (by omega)
    simp only [Nat.cast_zero, zero_div] at this ⊢
    rw [this, Fft.rfft_zero _ _ _ le_rfl, sum_roll h.proper.nv (fun v => ρ ⟨t, v, x, y, z⟩), ← Finset.sum_mul]
    push_cast
    rfl
  have e1 := Fft.sum_irfft hn (fun w => Fft.rfft nl n (S t z) w * interp (Fft.half g.nv)
      (fun j => Fft.rfft g.nv g.nv (fun i => ρ ⟨t, (i + v0) % g.nv, x, y, z⟩) j * (sp.dv : ℂ))
      ((w : ℝ) / ((Fft.half n : ℕ) - 1 : ℝ)))
  rw [e0, Fft.rfft_zero _ _ _ hnl, ← Complex.ofReal_mul, Complex.ofReal_re] at e1
  simp only [← Finset.sum_mul] at e1 ⊢
  rw [e1]
  unfold sspFlux
  ring

/-- If the velocity bins have the resolution of the SSPs exactly (as in every cube whose SSPs are not
shared, in exact arithmetic), no flux is lost or created: the sum over wavelength of each spaxel is
`Σ_{t,z} flux(t,z) p(t,x,z)`, with `p(t,x,z)` the marginal probability of the component. -/
theorem C24_flux (hI : Interp interp) (h : BaseIs cube stored g ρ L) (hn : 0 < n)
    (hS : SpectraAre sp g S nl n) (hnl : nl ≤ n) (h0 : ZeroBin g.nv g.v v0)
    (hw : ∀ i < g.nv, width g.v i = sp.dv) (hmid : v0 = g.nv / 2) (hm : 6 ≤ g.nv) :
    ∃ r, evaluateYbar interp (baseSelf cube stored) sp "none".toList = .ok r ∧
      ∀ x < g.nx, ∀ y < g.ny, ∑ k ∈ Finset.range n, r.get [k, x, y] =
        .fin (∑ t : Fin g.nt, ∑ z : Fin g.nz, sspFlux S nl t z *
          g.marg (massP g ρ) ['t','x','z'] ⟨t, 0, x, y, z⟩) := by
  have hv : VelocityOk g.nv g.v sp.dv v0 := by
    refine ⟨fun i hi => ?_, fun i hi => ?_, hmid⟩
    · rw [hw i hi, sub_self, abs_zero]; positivity
    · have h1 := h.proper.v i (by omega)
      have h2 := h.proper.v (i + 1) hi
      unfold centre
      linarith
  obtain ⟨r, hr, hr'⟩ := C24_flux_dv hI h hn hS hnl h0 hv hm
  refine ⟨r, hr, fun x hx y hy => ?_⟩
  rw [hr' x hx y hy]
  congr 1
  refine Finset.sum_congr rfl fun t _ => Finset.sum_congr rfl fun z _ => ?_
  rw [marg_txz t.2 hx hy z.2, Finset.sum_mul]
  congr 1
  refine Finset.sum_congr rfl fun v _ => ?_
  simp only [massP, Grid.cellVolume, hw v v.2]
  ring

/-- In general the validation admits widths that differ from `dv` by `1e-8 + 1e-5 |dv|`; the flux is
then off by at most that fraction of the total absolute flux. -/
theorem C24_flux_error (hI : Interp interp) (h : BaseIs cube stored g ρ L) (hn : 0 < n)
    (hS : SpectraAre sp g S nl n) (hnl : nl ≤ n) (h0 : ZeroBin g.nv g.v v0)
    (hv : VelocityOk g.nv g.v sp.dv v0) (hm : 6 ≤ g.nv) :
    ∃ r, evaluateYbar interp (baseSelf cube stored) sp "none".toList = .ok r ∧
      ∀ x < g.nx, ∀ y < g.ny, ∃ f : ℝ, ∑ k ∈ Finset.range n, r.get [k, x, y] = .fin f ∧
        |f - ∑ t : Fin g.nt, ∑ z : Fin g.nz, sspFlux S nl t z *
          g.marg (massP g ρ) ['t','x','z'] ⟨t, 0, x, y, z⟩| ≤
        (1 / 10 ^ 8 + 1 / 10 ^ 5 * |sp.dv|) * ∑ t : Fin g.nt, ∑ z : Fin g.nz, |sspFlux S nl t z| *
          ((∑ v : Fin g.nv, ρ ⟨t, v, x, y, z⟩) * (width g.t t * width g.z z * width g.x x * width g.y y)) := by
  obtain ⟨r, hr, hr'⟩ := C24_flux_dv hI h hn hS hnl h0 hv hm
  refine ⟨r, hr, fun x hx y hy => ⟨_, hr' x hx y hy, ?_⟩⟩
  rw [← Finset.sum_sub_distrib, Finset.mul_sum]
  refine le_trans (Finset.abs_sum_le_sum_abs _ _) ?_
  refine Finset.sum_le_sum fun t _ => ?_
  rw [← Finset.sum_sub_distrib, Finset.mul_sum]
  refine le_trans (Finset.abs_sum_le_sum_abs _ _) ?_
  refine Finset.sum_le_sum fun z _ => ?_
  rw [marg_txz t.2 hx hy z.2, ← mul_sub, abs_mul, mul_left_comm (1 / 10 ^ 8 + 1 / 10 ^ 5 * |sp.dv|)]
  refine mul_le_mul_of_nonneg_left ?_ (abs_nonneg (sspFlux S nl t z))
  rw [Finset.sum_mul, ← Finset.sum_sub_distrib, Finset.sum_mul, Finset.mul_sum]
  refine le_trans (Finset.abs_sum_le_sum_abs _ _) ?_
  refine Finset.sum_le_sum fun v _ => ?_
  have e : ρ ⟨t, v, x, y, z⟩ * sp.dv * (width g.t t * width g.z z * width g.x x * width g.y y) -
      massP g ρ ⟨t, v, x, y, z⟩ = -(width g.v v - sp.dv) *
        (ρ ⟨t, v, x, y, z⟩ * (width g.t t * width g.z z * width g.x x * width g.y y)) := by
    simp only [massP, Grid.cellVolume]
    ring
  have hpos : 0 ≤ ρ ⟨t, v, x, y, z⟩ * (width g.t t * width g.z z * width g.x x * width g.y y) := by
    have a := h.proper.t t t.2
    have b := h.proper.z z z.2
    have c := h.proper.x x hx
    have d := h.proper.y y hy
    have hw : ∀ {e : ℕ → ℝ} {i : ℕ}, e i < e (i + 1) → 0 ≤ width e i := fun h => by unfold width; linarith
    exact mul_nonneg (h.nonneg _) (mul_nonneg (mul_nonneg (mul_nonneg (hw a) (hw b)) (hw c)) (hw d))
  rw [e, abs_mul, abs_neg, abs_of_nonneg hpos]
  exact mul_le_mul_of_nonneg_right (hv.1 v v.2) hpos

/-! ### C26 -/

/-- The datacube is linear in the density. -/
theorem C26_linear (hI : Interp interp) {stored1 stored2 : Arr Num} {ρ1 ρ2 : Cell → ℝ} {a b : ℝ}
    (h1 : BaseIs cube stored1 g ρ1 L) (h2 : BaseIs cube stored2 g ρ2 L)
    (h : BaseIs cube stored g (fun c => a * ρ1 c + b * ρ2 c) L) (hn : 0 < n)
    (hS : SpectraAre sp g S nl n) (h0 : ZeroBin g.nv g.v v0) (hv : VelocityOk g.nv g.v sp.dv v0)
    (hm : 6 ≤ g.nv) :
    ∃ y y1 y2, evaluateYbar interp (baseSelf cube stored) sp "none".toList = .ok y ∧
      evaluateYbar interp (baseSelf cube stored1) sp "none".toList = .ok y1 ∧
      evaluateYbar interp (baseSelf cube stored2) sp "none".toList = .ok y2 ∧
      ∀ k < n, ∀ x < g.nx, ∀ w < g.ny, y.get [k, x, w] = .fin a * y1.get [k, x, w] + .fin b * y2.get [k, x, w] := by
  have hhalf : 4 ≤ Fft.half g.nv := by unfold Fft.half; omega
  obtain ⟨⟨y, a0, b0, c0⟩, -⟩ := (evaluateYbar_is hI.loc h hn hS h0 hv).2 hhalf
  obtain ⟨⟨y1, a1, b1, c1⟩, -⟩ := (evaluateYbar_is hI.loc h1 hn hS h0 hv).2 hhalf
  obtain ⟨⟨y2, a2, b2, c2⟩, -⟩ := (evaluateYbar_is hI.loc h2 hn hS h0 hv).2 hhalf
  refine ⟨y, y1, y2, a0, a1, a2, fun k hk x hx w hw => ?_⟩
  rw [c0 k hk x hx w hw, c1 k hk x hx w hw, c2 k hk x hx w hw]
  beta_reduce
  rw [Num.fin_mul, Num.fin_mul, Num.fin_add]
  congr 1
  simp only [ybarFT_eq]
  rw [← mul_assoc, ← mul_assoc, ← mul_assoc, ← mul_assoc, ← add_mul, ← add_mul]
  congr 2
  rw [Finset.mul_sum, Finset.mul_sum, ← Finset.sum_add_distrib]
  refine Finset.sum_congr rfl fun t _ => ?_
  rw [Finset.mul_sum, Finset.mul_sum, ← Finset.sum_add_distrib]
  refine Finset.sum_congr rfl fun z _ => ?_
  have : (fun j => Fft.rfft g.nv g.nv (fun i => a * ρ1 ⟨t, (i + v0) % g.nv, x, w, z⟩ +
      b * ρ2 ⟨t, (i + v0) % g.nv, x, w, z⟩) j * (sp.dv : ℂ)) = fun j =>
      (a : ℂ) * (Fft.rfft g.nv g.nv (fun i => ρ1 ⟨t, (i + v0) % g.nv, x, w, z⟩) j * (sp.dv : ℂ)) +
      (b : ℂ) * (Fft.rfft g.nv g.nv (fun i => ρ2 ⟨t, (i + v0) % g.nv, x, w, z⟩) j * (sp.dv : ℂ)) := by
    funext j
    rw [Fft.rfft_linear]
    ring
  simp only [this, hI.linear]
  rw [← mul_assoc a, ← mul_assoc b, ← add_mul, ← Fft.irfft_linear]
  congr 2
  funext j
  ring

/-- With as many velocity bins as pixels, the datacube is the circular convolution over log wavelength
of the SSPs with the velocity distributions: the SSP pixel `k - (v - v0)` contributes to pixel `k` with
the density in velocity bin `v`. Redshifts (`v > v0`) move flux to larger `k`. -/
theorem C26_convolution (hI : Interp interp) (h : BaseIs cube stored g ρ L)
    (hS : SpectraAre sp g S n n) (h0 : ZeroBin g.nv g.v v0)
    (hv : VelocityOk g.nv g.v sp.dv v0) (hm : 6 ≤ g.nv) (hnv : g.nv = n) :
    ∃ r, evaluateYbar interp (baseSelf cube stored) sp "none".toList = .ok r ∧
      ∀ k < n, ∀ x < g.nx, ∀ y < g.ny, r.get [k, x, y] =
        .fin (∑ t : Fin g.nt, ∑ z : Fin g.nz, ∑ v : Fin n,
          S t z (((k : ℤ) - ((v : ℤ) - v0)) % n).toNat * (ρ ⟨t, v, x, y, z⟩ *
            (width g.t t * sp.dv * width g.x x * width g.y y * width g.z z))) := by
  have hn : 0 < n := by omega
  have hhalf : 4 ≤ Fft.half g.nv := by unfold Fft.half; omega
  obtain ⟨⟨r, hr, hr1, hr2⟩, -⟩ := (evaluateYbar_is hI.loc h hn hS h0 hv).2 hhalf
  refine ⟨r, hr, fun k hk x hx y hy => ?_⟩
  rw [hr2 k hk x hx y hy]
  beta_reduce
  congr 1
  simp only [ybarFT_eq]
  rw [Finset.sum_mul, Finset.sum_mul]
  refine Finset.sum_congr rfl fun t _ => ?_
  rw [Finset.sum_mul, Finset.sum_mul]
  refine Finset.sum_congr rfl fun z _ => ?_
  rw [hnv] at hhalf h0 ⊢
  have e : Fft.irfft n (fun w => Fft.rfft n n (S t z) w * interp (Fft.half n)
      (fun j => Fft.rfft n n (fun i => ρ ⟨t, (i + v0) % n, x, y, z⟩) j * (sp.dv : ℂ))
      ((w : ℝ) / ((Fft.half n : ℕ) - 1 : ℝ))) k =
      Fft.conv n (S t z) (fun i => ρ ⟨t, (i + v0) % n, x, y, z⟩ * sp.dv) k := by
    rw [← Fft.irfft_mul hn _ _ hk]
    apply irfft_congr hn
    intro j hj
    rw [hI.nodes (Fft.half n) _ j hhalf hj]
    congr 1
    have := Fft.rfft_linear n (fun i => ρ ⟨t, (i + v0) % n, x, y, z⟩) (fun _ => 0) sp.dv 0 j
    simp only [mul_zero, add_zero, Complex.ofReal_zero, zero_mul] at this
    rw [mul_comm, ← this]
    congr 1
    funext i
    ring
  rw [e]
  unfold Fft.conv
  have e2 : ∀ j ∈ Finset.range n, S t z ((k + (n - j)) % n) * (ρ ⟨t, (j + v0) % n, x, y, z⟩ * sp.dv) =
      (fun v : ℕ => S t z (((k : ℤ) - ((v : ℤ) - v0)) % n).toNat * (ρ ⟨t, v, x, y, z⟩ * sp.dv)) ((j + v0) % n) := by
    intro j hj
    have hj := Finset.mem_range.1 hj
    beta_reduce
    congr 2
    have : ((((j + v0) % n : ℕ) : ℤ)) = j + v0 - n * ((j + v0) / n : ℕ) := by
      have := Nat.mod_add_div (j + v0) n
      have : (((j + v0) % n + n * ((j + v0) / n) : ℕ) : ℤ) = j + v0 := by rw [this]; push_cast; ring
      push_cast at this ⊢
      linarith
    rw [this]
    have e3 : (k : ℤ) - (j + v0 - n * ((j + v0) / n : ℕ) - v0) = ((k + (n - j) : ℕ) : ℤ) + n * (((j + v0) / n : ℕ) - 1) := by
      push_cast [Nat.cast_sub hj.le]
      ring
    rw [e3, Int.add_mul_emod_self_left, ← Int.natCast_mod, Int.toNat_natCast]
  rw [Finset.sum_congr rfl e2, sum_roll hn (fun v : ℕ => S t z (((k : ℤ) - ((v : ℤ) - v0)) % n).toNat *
    (ρ ⟨t, v, x, y, z⟩ * sp.dv)) v0, Finset.sum_mul, Finset.sum_mul, Finset.sum_mul]
  refine Finset.sum_congr rfl fun v _ => ?_
  ring

/-- A component at rest (all density in the bin at `v = 0`) has the unshifted mixture of SSPs in every
spaxel, whatever the number of velocity bins and pixels. -/
theorem C26_at_rest (hI : Interp interp) (h : BaseIs cube stored g ρ L) (hn : 0 < n)
    (hS : SpectraAre sp g S n n) (h0 : ZeroBin g.nv g.v v0) (hv : VelocityOk g.nv g.v sp.dv v0) (hm : 6 ≤ g.nv)
    (hρ : ∀ t v x y z, v ≠ v0 → ρ ⟨t, v, x, y, z⟩ = 0) :
    ∃ r, evaluateYbar interp (baseSelf cube stored) sp "none".toList = .ok r ∧
      ∀ k < n, ∀ x < g.nx, ∀ y < g.ny, r.get [k, x, y] =
        .fin (∑ t : Fin g.nt, ∑ z : Fin g.nz, S t z k * (ρ ⟨t, v0, x, y, z⟩ *
            (width g.t t * sp.dv * width g.x x * width g.y y * width g.z z))) := by
  have hhalf : 4 ≤ Fft.half g.nv := by unfold Fft.half; omega
  obtain ⟨⟨r, hr, hr1, hr2⟩, -⟩ := (evaluateYbar_is hI.loc h hn hS h0 hv).2 hhalf
  refine ⟨r, hr, fun k hk x hx y hy => ?_⟩
  rw [hr2 k hk x hx y hy]
  beta_reduce
  congr 1
  simp only [ybarFT_eq]
  rw [Finset.sum_mul, Finset.sum_mul]
  refine Finset.sum_congr rfl fun t _ => ?_
  rw [Finset.sum_mul, Finset.sum_mul]
  refine Finset.sum_congr rfl fun z _ => ?_
  have hc : (fun j => Fft.rfft g.nv g.nv (fun i => ρ ⟨t, (i + v0) % g.nv, x, y, z⟩) j * (sp.dv : ℂ)) =
      fun _ => ((ρ ⟨t, v0, x, y, z⟩ * sp.dv : ℝ) : ℂ) := by
    funext j
    rw [Fft.rfft_eq, Finset.sum_eq_single 0]
    · simp only [Nat.cast_zero, mul_zero, neg_zero, Fft.root_zero, zero_add, mul_one, Nat.mod_eq_of_lt h0.1]
      push_cast
      rfl
    · intro i hi hi0
      have hi := Finset.mem_range.1 hi
      rw [hρ, Complex.ofReal_zero, zero_mul]
      have h1 := h0.1
      intro he
      rcases Nat.lt_or_ge (i + v0) g.nv with hl | hl
      · rw [Nat.mod_eq_of_lt hl] at he; omega
      · rw [Nat.mod_eq_sub_mod hl, Nat.mod_eq_of_lt (by omega)] at he; omega
    · intro hh; exact absurd (Finset.mem_range.2 h.proper.nv) hh
  rw [hc]
  simp only [hI.const]
  have := Fft.irfft_linear n (Fft.rfft n n (S t z)) (fun _ => 0) (ρ ⟨t, v0, x, y, z⟩ * sp.dv) 0 k
  simp only [mul_zero, add_zero, zero_mul, Complex.ofReal_zero] at this
  have e : (fun w => Fft.rfft n n (S t z) w * ((ρ ⟨t, v0, x, y, z⟩ * sp.dv : ℝ) : ℂ)) =
      fun w => ((ρ ⟨t, v0, x, y, z⟩ * sp.dv : ℝ) : ℂ) * Fft.rfft n n (S t z) w := by
    funext w; ring
  rw [e, this, Fft.irfft_rfft hn _ hk]
  ring

/-! ### Non-vacuity -/

/-- Nearest-neighbour interpolation satisfies all the assumptions (the cubic spline is another
instance). -/
theorem interp_exists : Interp (fun m Y x => Y (min (m - 1) ⌊x * (m - 1 : ℝ) + 1 / 2⌋₊)) where
  loc := by
    intro m Y Y' hm hY x
    exact hY _ (by omega)
  nodes := by
    intro m Y j hm hj
    have : (0 : ℝ) < (m : ℝ) - 1 := by
      have : (4 : ℝ) ≤ m := by exact_mod_cast hm
      linarith
    beta_reduce
    have e : ((j : ℝ) / ((m : ℝ) - 1)) * ((m : ℝ) - 1) = j := by field_simp
    rw [e]
    have : ⌊(j : ℝ) + 1 / 2⌋₊ = j := by
      rw [Nat.floor_eq_iff (by positivity)]
      constructor <;> norm_num
    rw [this]
    congr 1
    omega
  linear := fun _ _ _ _ _ _ => rfl
  const := fun _ _ _ => rfl

/-- Spectra of the demonstration: seven pixels, all SSPs different. -/
def demoSpec (t z k : ℕ) : ℝ := t + 2 * z + k ^ 2

/-- All hypotheses of the theorems above hold together for a cube built by the constructor with seven
velocity bins on (-70, 70), SSPs resampled at its resolution, and a uniform density. -/
theorem ybar_demo : ∃ cube sp, IFUCube.init demoSSPs 2 3 7 (-1, 1) (0, 3) (-70, 70) = .ok cube ∧
    BaseIs cube (uniformStored 2 3 7) (uniformGrid 2 3 7 (-70, 70)) (fun _ => 1) demoL ∧
    SpectraAre sp (uniformGrid 2 3 7 (-70, 70)) demoSpec 7 7 ∧ sp.dv = 20 ∧
    ZeroBin (uniformGrid 2 3 7 (-70, 70)).nv (uniformGrid 2 3 7 (-70, 70)).v 3 ∧
    VelocityOk (uniformGrid 2 3 7 (-70, 70)).nv (uniformGrid 2 3 7 (-70, 70)).v sp.dv 3 ∧
    (∀ i < (uniformGrid 2 3 7 (-70, 70)).nv, width (uniformGrid 2 3 7 (-70, 70)).v i = sp.dv) := by
  obtain ⟨cube, h1, h2⟩ := uniformBase 2 3 7 (by norm_num) (by norm_num) (by norm_num) (-70, 70) (by norm_num)
  obtain ⟨sp, h3, h4, h5⟩ := C23_spectra (g := uniformGrid 2 3 7 (-70, 70)) (S := demoSpec) (nl := 7)
    (Xw := ⟨[7, 6], fun i => demoSpec (i.getD 1 0 % 2) (i.getD 1 0 / 2) (i.getD 0 0)⟩) 20 rfl (by
      intro k _ t ht z _
      have ht : t < 2 := ht
      show demoSpec ((z * 2 + t) % 2) ((z * 2 + t) / 2) k = _
      congr 1 <;> omega)
  have hw : ∀ i, width (uniformGrid 2 3 7 (-70, 70)).v i = 20 := by
    intro i
    show width (evenEdges _ 7) i = 20
    rw [width_even]
    norm_num
  have hc : ∀ i : ℕ, centre (uniformGrid 2 3 7 (-70, 70)).v i = 20 * ((i : ℝ) - 3) := by
    intro i
    show centre (evenEdges _ 7) i = _
    simp only [centre, evenEdges]
    push_cast
    ring
  refine ⟨cube, sp, h1, h2, h4, h5, ⟨by show 3 < 7; norm_num, ?_, ?_⟩, ⟨?_, ?_, rfl⟩, fun i _ => by rw [hw, h5]⟩
  · rw [hc]; norm_num
  · intro i hi
    rw [hc]
    have : (i : ℝ) ≤ 2 := by exact_mod_cast (by omega : i ≤ 2)
    rw [abs_of_neg (by linarith)]
    norm_num
    linarith
  · intro i _
    rw [hw, h5]
    norm_num
  · intro i _
    rw [hc, hc]
    push_cast
    linarith

/-- Instance: the datacube of the demonstration exists, and flux is conserved in it. -/
example : ∃ (cube : IFUCube) (sp : Spectra) (r : Arr Num),
    evaluateYbar (fun m Y x => Y (min (m - 1) ⌊x * (m - 1 : ℝ) + 1 / 2⌋₊))
      (baseSelf cube (uniformStored 2 3 7)) sp "none".toList = .ok r ∧
    ∑ k ∈ Finset.range 7, r.get [k, 1, 2] = .fin (∑ t : Fin 2, ∑ z : Fin 3, sspFlux demoSpec 7 t z *
      (uniformGrid 2 3 7 (-70, 70)).marg (massP (uniformGrid 2 3 7 (-70, 70)) fun _ => 1) ['t','x','z'] ⟨t, 0, 1, 2, z⟩) := by
  obtain ⟨cube, sp, -, h2, h3, h4, h5, h6, h7⟩ := ybar_demo
  obtain ⟨r, hr, hr'⟩ := C24_flux interp_exists h2 (by norm_num) h3 le_rfl h5 h7 rfl (by show 6 ≤ 7; norm_num)
  exact ⟨cube, sp, r, hr, hr' 1 (by show 1 < 2; norm_num) 2 (by show 2 < 3; norm_num)⟩

/-- Instance: a component whose density is concentrated in the central bin exists. -/
example : ∃ cube : IFUCube, ∃ stored : Arr Num, BaseIs cube stored (uniformGrid 2 3 7 (-70, 70))
    (fun c => if c.v = 3 then 1 else 0) demoL := by
  obtain ⟨cube, -, h⟩ := uniformBase 2 3 7 (by norm_num) (by norm_num) (by norm_num) (-70, 70) (by norm_num)
  refine ⟨cube, ⟨[2, 7, 2, 3, 3], fun i => if i.getD 1 0 = 3 then Num.lg 1 else Num.lg 0⟩, h.proper, h.cubeIs,
    ⟨rfl, fun c _ => ?_⟩, fun c => ?_, h.light, h.lightNonneg⟩
  · show (if c.v = 3 then Num.lg 1 else Num.lg 0) = Num.lg (if c.v = 3 then 1 else 0)
    split_ifs <;> rfl
  · beta_reduce
    split_ifs <;> norm_num

/-- The constructor defaults are in the rejected case: 200 bins on ±1000. -/
example : (200 : ℕ) % 2 = 0 ∧ (1 : ℝ) / 10 ^ 8 < 1000 / (200 : ℕ) := by norm_num

end PKM
