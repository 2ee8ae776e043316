import Verif.SharedLemmas
import Verif.Props.Ssp
import Verif.Props.Ybar

/-!
# C50, C59: cubes which share an SSP object

`afterCubes K h s` is the SSP object `s` after the calls `IFUCube(ssps, ...)` with arguments `h`, successful or not, in this order.
-/

open scoped Classical

noncomputable section

namespace PKM
open Np Component SharedSsps

/-- The SSP object after a history of constructions of cubes. -/
def afterCubes (K : Interp1d) (h : List CubeArgs) (s : SharedSsps) : SharedSsps :=
  h.foldl (fun s a => (makeCube K a s).2) s

/-- Width of the velocity bins asked for. -/
def binWidth (a : CubeArgs) : ℝ := (a.vrng.2 - a.vrng.1) / a.nv

/-- Centre of velocity bin `i`. -/
def binCentre (a : CubeArgs) (i : ℕ) : ℝ := a.vrng.1 + (i + 1 / 2) * binWidth a

/-- numpy's tolerance when a width is compared with the resolution `dv`. -/
def SameResolution (width dv : ℝ) : Prop := |width - dv| ≤ 1 / 10 ^ 8 + 1 / 10 ^ 5 * |dv|

variable {K : Interp1d} {s : SharedSsps} {a b : CubeArgs} {cube : IFUCube} {h h1 h2 : List CubeArgs}

/-! ### Helpers -/

theorem afterCubes_append (h1 h2 : List CubeArgs) (s : SharedSsps) :
    afterCubes K (h1 ++ h2) s = afterCubes K h2 (afterCubes K h1 s) := by simp [afterCubes]

theorem makeCube_grid (K : Interp1d) (a : CubeArgs) (s : SharedSsps) : (makeCube K a s).2.grid = s.grid := by
  rcases makeCube_cases K a s with ⟨e, h⟩ | ⟨l, -, ⟨e, h, -⟩ | ⟨e, h, -⟩ | ⟨c, lw, -, -, h, -⟩⟩ <;> rw [h]

theorem afterCubes_grid (h : List CubeArgs) (s : SharedSsps) : (afterCubes K h s).grid = s.grid := by
  induction h generalizing s with
  | nil => rfl
  | cons a h ih => exact (ih _).trans (makeCube_grid K a s)

/-- Light weights, once stored, do not change. -/
theorem afterCubes_light {lw : Arr Num} (h : List CubeArgs) (s : SharedSsps) (hl : s.light = some lw) (hg : s.grid.lightWeights = .ok lw) :
    (afterCubes K h s).light = some lw := by
  induction h generalizing s with
  | nil => exact hl
  | cons a h ih =>
    refine ih _ ?_ (by rw [makeCube_grid]; exact hg)
    show (makeCube K a s).2.light = some lw
    rcases makeCube_cases K a s with ⟨e, h⟩ | ⟨l, -, ⟨e, h, -⟩ | ⟨e, h, -⟩ | ⟨c, lw', hlw, -, h, -⟩⟩ <;> rw [h]
    · exact hl
    · exact hl
    · exact hl
    · rw [hg] at hlw
      injection hlw with hlw
      simp [hlw]

theorem makeCube_ok (hc : (makeCube K a s).1 = .ok cube) : ∃ l lw, resampled K a.dv a.kind s.grid = .ok l ∧ l.w.length ≠ 0 ∧
    s.grid.lightWeights = .ok lw ∧ (makeCube K a s).2 = ⟨s.grid, some l, fftOf s.grid.parDims l, some lw⟩ ∧
    IFUCube.init (⟨s.grid, some l, fftOf s.grid.parDims l, some lw⟩ : SharedSsps).toSSPs a.nx a.ny a.nv a.x1rng a.x2rng a.vrng =
      .ok cube := by
  rcases makeCube_cases K a s with ⟨e, h⟩ | ⟨l, hl, ⟨e, h, -⟩ | ⟨e, h, -⟩ | ⟨c, lw, hlw, hw, h, S', hS, rfl⟩⟩ <;> rw [h] at hc
  · simp at hc
  · simp at hc
  · simp at hc
  · injection hc with hc
    subst hc
    exact ⟨l, lw, hl, hw, hlw, by rw [h], hS⟩

theorem cube_edges (hc : (makeCube K a s).1 = .ok cube) :
    0 < a.nv ∧ Is1 cube.vEdg (a.nv.toNat + 1) (fun i => a.vrng.1 + i * binWidth a) := by
  obtain ⟨l, lw, -, -, -, -, hi⟩ := makeCube_ok hc
  obtain ⟨-, -, h3, h4, -⟩ := init_ok hi
  have e : (a.nv + 1).toNat = a.nv.toNat + 1 := by omega
  refine ⟨h3, ?_, ?_⟩
  · rw [h4, e]; rfl
  · intro i _
    rw [h4]
    rfl

theorem edge_facts (a : CubeArgs) (i : ℕ) : centre (fun i : ℕ => a.vrng.1 + i * binWidth a) i = binCentre a i ∧
    width (fun i : ℕ => a.vrng.1 + i * binWidth a) i = binWidth a := by
  constructor
  · simp only [centre, binCentre]; push_cast; ring
  · simp only [width]; push_cast; ring

/-- What is stored on the object, if it is nothing or was stored by the constructions in `h`. -/
def StoredBy (K : Interp1d) (g : SspGrid) (h : List CubeArgs) (s : SharedSsps) : Prop :=
  s.grid = g ∧ ∀ l, s.log = some l → ∃ b ∈ h, resampled K b.dv b.kind g = .ok l ∧ (l.w.length = 0 ∨ s.fft = fftOf g.parDims l)

theorem storedBy_step {g : SspGrid} (hs : StoredBy K g h s) (a : CubeArgs) : StoredBy K g (h ++ [a]) (makeCube K a s).2 := by
  obtain ⟨hg, hl⟩ := hs
  subst hg
  refine ⟨makeCube_grid K a s, ?_⟩
  rcases makeCube_cases K a s with ⟨e, h⟩ | ⟨l, hr, ⟨e, h, hw⟩ | ⟨e, h, -⟩ | ⟨c, lw, -, -, h, -⟩⟩ <;> rw [h]
  · intro l hl'
    obtain ⟨b, hb, h1, h2⟩ := hl l hl'
    exact ⟨b, by simp [hb], h1, h2⟩
  · intro l' hl'
    obtain rfl : l = l' := by simpa using hl'
    exact ⟨a, by simp, hr, Or.inl hw⟩
  · intro l' hl'
    obtain rfl : l = l' := by simpa using hl'
    exact ⟨a, by simp, hr, Or.inr rfl⟩
  · intro l' hl'
    obtain rfl : l = l' := by simpa using hl'
    exact ⟨a, by simp, hr, Or.inr rfl⟩

theorem storedBy_after {g : SspGrid} (h0 h : List CubeArgs) (hs : StoredBy K g h0 s) : StoredBy K g (h0 ++ h) (afterCubes K h s) := by
  induction h generalizing h0 s with
  | nil =>
    rw [List.append_nil]
    exact hs
  | cons a h ih =>
    have := ih (h0 ++ [a]) (storedBy_step hs a)
    rw [List.append_assoc, List.singleton_append] at this
    exact this

/-! ### C50 -/

/-- No construction of a cube changes the SSPs themselves, and what an existing cube reads from them (edges, centres, widths of the
age and metallicity bins and light weights) is the same after any further constructions, successful or not. -/
theorem C50_unchanged (hc : (makeCube K a s).1 = .ok cube) (h : List CubeArgs) :
    (afterCubes K h (makeCube K a s).2).grid = s.grid ∧ (afterCubes K h (makeCube K a s).2).toSSPs = cube.ssps := by
  have hg := (afterCubes_grid (K := K) h (makeCube K a s).2).trans (makeCube_grid K a s)
  obtain ⟨l, lw, -, -, hlw, hs, hi⟩ := makeCube_ok hc
  refine ⟨hg, ?_⟩
  have hlight := afterCubes_light (K := K) (lw := lw) h (makeCube K a s).2 (by rw [hs]) (by rw [makeCube_grid]; exact hlw)
  have hci : cube.ssps = (⟨s.grid, some l, fftOf s.grid.parDims l, some lw⟩ : SharedSsps).toSSPs := by
    rw [init_eq] at hi
    obtain ⟨⟨dx, x⟩, _, hi⟩ := bind_ok hi
    obtain ⟨⟨dy, y⟩, _, hi⟩ := bind_ok hi
    obtain ⟨_, _, hi⟩ := bind_ok hi
    obtain ⟨_, _, hi⟩ := bind_ok hi
    obtain ⟨_, _, hi⟩ := bind_ok hi
    obtain ⟨_, _, hi⟩ := bind_ok hi
    injection hi with hi
    rw [← hi]
  rw [hci, toSSPs, hg, hlight]
  rfl

/-- The spectra in use are those of the last construction: whatever was constructed before, a successful construction stores spectra
resampled at its own bin width with its own kind of interpolation, and their transforms. -/
theorem C50_last (hc : (makeCube K a (afterCubes K h s)).1 = .ok cube) :
    ∃ l sp, resampled K (binWidth a) a.kind s.grid = .ok l ∧ l.dv = binWidth a ∧
      Spectra.fourier l.dv l.Xw s.grid.parDims none = .ok sp ∧
      (afterCubes K (h ++ [a]) s).log = some l ∧ (afterCubes K (h ++ [a]) s).fft = some (sp.nFft, sp.FXw) := by
  obtain ⟨l, lw, hl, -, -, hs, -⟩ := makeCube_ok hc
  obtain ⟨sp, hsp, -⟩ := fourier_some l s.grid.parDims
  rw [afterCubes_grid] at hl hs
  refine ⟨l, sp, hl, (resampled_dv hl).1, hsp, ?_, ?_⟩
  · rw [afterCubes_append]
    show (makeCube K a _).2.log = _
    rw [hs]
  · rw [afterCubes_append]
    show (makeCube K a _).2.fft = _
    rw [hs]
    simp only [fftOf, hsp]

/-- A cube was constructed in some history `h1`, other constructions `h2` on the same SSPs followed, and the resolution stored on the
SSPs now differs from the bin width of the cube by more than numpy's tolerance. Then evaluating the datacube of any component on
this cube (which uses `Component.evaluate_ybar`) raises, whatever `batch` is: `ValueError` if the cube has a bin at zero
velocity, and `IndexError` if it has none. -/
theorem C50_raises (hc : (makeCube K a (afterCubes K h1 s)).1 = .ok cube) (h2 : List CubeArgs) {l : LogGrid}
    (hl : (afterCubes K (h1 ++ [a] ++ h2) s).log = some l) (hne : ¬ SameResolution (binWidth a) l.dv)
    (interp : ℕ → (ℕ → ℂ) → ℝ → ℂ) {self : Self} (hself : self.cube = cube) (batch : PyStr) :
    ((∃ i < a.nv.toNat, |binCentre a i| ≤ 1 / 10 ^ 8) →
      evaluateShared interp self (afterCubes K (h1 ++ [a] ++ h2) s) batch = .error .valueError) ∧
    ((∀ i < a.nv.toNat, 1 / 10 ^ 8 < |binCentre a i|) →
      evaluateShared interp self (afterCubes K (h1 ++ [a] ++ h2) s) batch = .error .indexError) := by
  obtain ⟨hpos, hv⟩ := cube_edges hc
  obtain ⟨V1, V2⟩ := C25_validation hv l.dv
  have key : ∀ e, validateVEdg self.cube.vEdg l.dv = .error e →
      evaluateShared interp self (afterCubes K (h1 ++ [a] ++ h2) s) batch = .error e := by
    intro e he
    unfold evaluateShared
    simp only [hl]
    cases (afterCubes K (h1 ++ [a] ++ h2) s).fft with
    | none => simp only [he]; rfl
    | some f => simp only [evaluateYbar, he]; rfl
  constructor
  · rintro ⟨i, hi, hz⟩
    refine key _ ?_
    rw [hself]
    rcases V2.2 with h | h | h
    · obtain ⟨_, _, _, _, _, _, hw⟩ := V2.1.1 h
      have := hw 0 (by omega)
      exact absurd (by rw [← (edge_facts a 0).2]; exact this) hne
    · have := V1.1 h i hi
      rw [(edge_facts a i).1] at this
      exact absurd hz (not_le.2 this)
    · exact h
  · intro hz
    refine key _ ?_
    rw [hself]
    exact V1.2 fun i hi => by rw [(edge_facts a i).1]; exact hz i hi

/-- Two cubes of different resolution on the same SSPs: after the second has been constructed, the datacube of the first cannot be
evaluated. -/
theorem C50_second {cube2 : IFUCube} (h1c : (makeCube K a s).1 = .ok cube) (h2c : (makeCube K b (makeCube K a s).2).1 = .ok cube2)
    (hne : ¬ SameResolution (binWidth a) (binWidth b)) (hz : ∃ i < a.nv.toNat, |binCentre a i| ≤ 1 / 10 ^ 8)
    (interp : ℕ → (ℕ → ℂ) → ℝ → ℂ) {self : Self} (hself : self.cube = cube) (batch : PyStr) :
    evaluateShared interp self (makeCube K b (makeCube K a s).2).2 batch = .error .valueError := by
  obtain ⟨l, sp, -, hdv, -, hl, -⟩ := C50_last (h := [a]) (s := s) h2c
  exact (C50_raises (h1 := []) h1c [b] hl (by rwa [hdv]) interp hself batch).1 hz

/-- After any history of constructions on new SSPs, a datacube that is evaluated without an exception, for a component on any of the cubes
(with bins wider than 1e-7), is computed with spectra that one of the constructions resampled at the bin width of this cube, up to
numpy's tolerance, and with the transforms of these spectra. -/
theorem C50_sound {g : SspGrid} (hc : (makeCube K a (afterCubes K h1 (fresh g))).1 = .ok cube) (ha : 1 / 10 ^ 7 < binWidth a)
    (h2 : List CubeArgs) (interp : ℕ → (ℕ → ℂ) → ℝ → ℂ) {self : Self} (hself : self.cube = cube) {batch : PyStr} {y : Arr Num}
    (hy : evaluateShared interp self (afterCubes K (h1 ++ [a] ++ h2) (fresh g)) batch = .ok y) :
    ∃ b ∈ h1 ++ [a] ++ h2, ∃ l sp, resampled K (binWidth b) b.kind g = .ok l ∧
      Spectra.fourier (binWidth b) l.Xw g.parDims none = .ok sp ∧ SameResolution (binWidth a) (binWidth b) ∧
      evaluateYbar interp self sp batch = .ok y := by
  have hst : StoredBy K g [] (fresh g) := ⟨rfl, fun l hl => by simp [fresh] at hl⟩
  have hS := storedBy_after [] (h1 ++ [a] ++ h2) hst
  rw [List.nil_append] at hS
  generalize hSS : afterCubes K (h1 ++ [a] ++ h2) (fresh g) = S at hy hS
  unfold evaluateShared at hy
  cases hl : S.log with
  | none => simp [hl] at hy
  | some l =>
    obtain ⟨b, hb, hr, hf⟩ := hS.2 l hl
    simp only [hl] at hy
    have hlen := resampled_dv hr
    have hval : validateVEdg self.cube.vEdg l.dv = .ok () := by
      cases hfft : S.fft with
      | none =>
        simp only [hfft] at hy
        obtain ⟨_, hv, _⟩ := bind_ok hy
        exact hv
      | some f =>
        simp only [hfft, evaluateYbar] at hy
        obtain ⟨_, hv, _⟩ := bind_ok hy
        exact hv
    rw [hself] at hval
    obtain ⟨hpos, hv⟩ := cube_edges hc
    obtain ⟨_, _, _, _, _, _, hw⟩ := (C25_validation hv l.dv).2.1.1 hval
    have hsame : SameResolution (binWidth a) (binWidth b) := by
      have h0 := hw 0 (by omega)
      rw [hlen.1] at h0
      have := (edge_facts a 0).2
      simp only [width] at this
      rw [this] at h0
      exact h0
    have hbpos : 0 < binWidth b := by
      by_contra hn
      have hn := not_lt.1 hn
      have := hsame
      unfold SameResolution at this
      rw [abs_of_nonpos hn, abs_of_pos (by linarith [show (0 : ℝ) < 1 / 10 ^ 7 by norm_num])] at this
      norm_num at this ha
      linarith
    have hapos : 0 < binWidth a := lt_trans (by norm_num) ha
    obtain ⟨la, lwa, hra, hna, -⟩ := makeCube_ok hc
    rw [afterCubes_grid] at hra
    change resampled K a.dv a.kind g = _ at hra
    obtain ⟨lo, hi, e1, e2, e3⟩ := resampled_len hra
    obtain ⟨lo', hi', e1', e2', e3'⟩ := resampled_len hr
    rw [e1] at e1'
    rw [e2] at e2'
    injection e1' with e1'
    injection e2' with e2'
    subst e1' e2'
    have hlt : 0 < hi - lo := (pixels_pos hapos).1 (by
      rw [e3] at hna
      exact Nat.pos_of_ne_zero hna)
    have hlb : l.w.length ≠ 0 := by
      have := (pixels_pos hbpos).2 hlt
      rw [e3']
      exact this.ne'
    obtain ⟨sp, hsp, hsp'⟩ := fourier_some l g.parDims
    rcases hf with hf | hf
    · exact absurd hf hlb
    · simp only [hf, fftOf, hsp] at hy
      refine ⟨b, hb, l, sp, hr, ?_, hsame, ?_⟩
      · have : l.dv = binWidth b := hlen.1
        rw [← this]
        exact hsp
      · rw [hsp']
        rw [hS.1] at hy
        exact hy

/-- A construction that fails can break earlier cubes: a descending velocity range raises `ValueError`, but its (negative) resolution stays
on the SSPs, so that evaluating the datacube of an earlier cube with a bin at zero raises `ValueError`. -/
theorem C50_failed (hc : (makeCube K a s).1 = .ok cube) (ha : 1 / 10 ^ 7 < binWidth a) (hb : b.vrng.2 < b.vrng.1) (hx : 0 < b.nx)
    (hy : 0 < b.ny) (hv : 0 < b.nv) (hk : b.kind = a.kind) (hz : ∃ i < a.nv.toNat, |binCentre a i| ≤ 1 / 10 ^ 8)
    (interp : ℕ → (ℕ → ℂ) → ℝ → ℂ) {self : Self} (hself : self.cube = cube) (batch : PyStr) :
    (makeCube K b (makeCube K a s).2).1 = .error .valueError ∧
    evaluateShared interp self (makeCube K b (makeCube K a s).2).2 batch = .error .valueError := by
  obtain ⟨l, lw, hl, hlen, -, hs, -⟩ := makeCube_ok hc
  have hbneg : binWidth b < 0 := by
    have : (0 : ℝ) < b.nv := by exact_mod_cast hv
    exact div_neg_of_neg_of_pos (by linarith) this
  obtain ⟨l', hl'⟩ := resampled_other hl hbneg.ne
  have hdv' : l'.dv = binWidth b := (resampled_dv hl').1
  have hlen' : l'.w.length = 0 := by
    obtain ⟨lo, hi, e1, e2, e3⟩ := resampled_len hl
    obtain ⟨lo', hi', e1', e2', e3'⟩ := resampled_len hl'
    rw [e1] at e1'
    rw [e2] at e2'
    injection e1' with e1'
    injection e2' with e2'
    subst e1' e2'
    have hlt : 0 < hi - lo := (pixels_pos (lt_trans (by norm_num) ha : 0 < binWidth a)).1 (by
      rw [e3] at hlen
      exact Nat.pos_of_ne_zero hlen)
    rw [e3', Int.toNat_eq_zero]
    refine Int.ceil_le.2 ?_
    have : binWidth b / 299792 < 0 := div_neg_of_neg_of_pos hbneg (by norm_num)
    exact_mod_cast (div_neg_of_pos_of_neg hlt this).le
  have hrun : makeCube K b (makeCube K a s).2 = (.error .valueError, { (makeCube K a s).2 with log := some l' }) := by
    have hl'' : resampled K (binWidth b) b.kind (makeCube K a s).2.grid = .ok l' := by rw [makeCube_grid, hk]; exact hl'
    generalize (makeCube K a s).2 = s' at hl''
    obtain ⟨c2, hc2⟩ := init_succeeds s'.toSSPs hx hy hv b.x1rng b.x2rng b.vrng
    obtain ⟨-, -, -, h4, -⟩ := init_ok hc2
    have hdv : finPart (c2.vEdg.get [1]) - finPart (c2.vEdg.get [0]) = binWidth b := by
      rw [h4]
      simp [vec, finPart, binWidth]
    unfold makeCube
    simp only [hc2, hdv, logResample, hl'', Py.ok_bind, calcFourier, hlen', if_true]
  rw [hrun]
  refine ⟨rfl, ?_⟩
  have hne : ¬ SameResolution (binWidth a) l'.dv := by
    unfold SameResolution
    rw [hdv', abs_of_neg hbneg, abs_of_pos (by linarith [show (0 : ℝ) < 1 / 10 ^ 7 by norm_num])]
    norm_num at ha ⊢
    linarith
  have := (C50_raises (h1 := []) hc [b] (l := l') (by
    show (makeCube K b (makeCube K a s).2).2.log = _
    rw [hrun]) hne interp hself batch).1 hz
  change evaluateShared interp self (makeCube K b (makeCube K a s).2).2 batch = _ at this
  rw [hrun] at this
  exact this

/-! ### C59 -/

/-- What is used about `interp1d`: the interpolant depends on the given values only and goes through them. -/
structure Interpolates (K : Interp1d) : Prop where
  loc : ∀ kind x Y Y', (∀ j < x.length, Y j = Y' j) → K.eval kind x Y = K.eval kind x Y'
  nodes : ∀ kind x Y j, K.check kind x.length = .ok () → x.Pairwise (· < ·) → j < x.length → K.eval kind x Y (x.getD j 0) = Y j

/-- Exactly when SSPs can be resampled for a cube with positive bin counts and ascending velocity range: the number of wavelengths is right
for the kind of interpolation, and there are two different wavelengths. -/
theorem C59_constructed {n nt nz : ℕ} {t z : ℕ → ℝ} {S : ℕ → ℕ → ℕ → ℝ} (hg : GridIs s.grid n nt nz t z S) (hn : s.grid.lmd.length = n)
    (hpos : ∀ x ∈ s.grid.lmd, 0 < x) (hx : 0 < a.nx) (hy : 0 < a.ny) (hv : 0 < a.nv) (hr : a.vrng.1 < a.vrng.2) :
    (∃ cube, (makeCube K a s).1 = .ok cube) ↔ K.check a.kind n = .ok () ∧ ∃ x ∈ s.grid.lmd, ∃ y ∈ s.grid.lmd, x ≠ y := by
  have hdv : 0 < a.dv := by
    have : (0 : ℝ) < a.nv := by exact_mod_cast hv
    exact div_pos (by linarith) this
  have hX : s.grid.X.shape.headD 0 = s.grid.lmd.length := by rw [hg.xShape, hn]; rfl
  constructor
  · rintro ⟨cube, hc⟩
    obtain ⟨l, lw, hl, hlen, -⟩ := makeCube_ok hc
    have hne : s.grid.lmd ≠ [] := by
      intro h0
      unfold resampled at hl
      obtain ⟨_, _, hl⟩ := bind_ok hl
      obtain ⟨_, hl, _⟩ := bind_ok hl
      simp [h0, amin] at hl
    obtain ⟨lo, hlo⟩ := least_exists (l := s.grid.lmd.map Real.log) (by simpa using hne)
    obtain ⟨hi, hhi⟩ := greatest_exists (l := s.grid.lmd.map Real.log) (by simpa using hne)
    obtain ⟨lo', hi', e1, e2, e3⟩ := resampled_len hl
    rw [amin_is hlo] at e1
    rw [amax_is hhi] at e2
    injection e1 with e1
    injection e2 with e2
    subst e1 e2
    have hlt : 0 < hi - lo := (pixels_pos hdv).1 (by rw [e3] at hlen; exact Nat.pos_of_ne_zero hlen)
    obtain ⟨x, hx', hxl⟩ := List.mem_map.1 hlo.1
    obtain ⟨y, hy', hyl⟩ := List.mem_map.1 hhi.1
    refine ⟨?_, x, hx', y, hy', ?_⟩
    · unfold resampled at hl
      obtain ⟨_, h1, _⟩ := bind_ok hl
      rw [List.length_map, if_pos hX, hn] at h1
      exact h1
    · rintro rfl
      rw [hxl] at hyl
      linarith
  · rintro ⟨hk, x, hx', y, hy', hxy⟩
    have hne : s.grid.lmd ≠ [] := List.ne_nil_of_mem hx'
    obtain ⟨lo, hlo⟩ := least_exists (l := s.grid.lmd.map Real.log) (by simpa using hne)
    obtain ⟨hi, hhi⟩ := greatest_exists (l := s.grid.lmd.map Real.log) (by simpa using hne)
    obtain ⟨L, hL, -⟩ := lightWeights_is hg
    obtain ⟨c, hc⟩ := init_succeeds s.toSSPs hx hy hv a.x1rng a.x2rng a.vrng
    have hlt : 0 < hi - lo := by
      have h1 := hlo.2 (List.mem_map.2 ⟨x, hx', rfl⟩)
      have h2 := hlo.2 (List.mem_map.2 ⟨y, hy', rfl⟩)
      have h3 := hhi.2 (List.mem_map.2 ⟨x, hx', rfl⟩)
      have h4 := hhi.2 (List.mem_map.2 ⟨y, hy', rfl⟩)
      rcases lt_or_gt_of_ne hxy with h | h
      · linarith [Real.log_lt_log (hpos x hx') h]
      · linarith [Real.log_lt_log (hpos y hy') h]
    obtain ⟨l, hl, hlen⟩ : ∃ l, resampled K a.dv a.kind s.grid = .ok l ∧ l.w.length ≠ 0 := by
      refine ⟨_, resampled_is (K := K) (kind := a.kind) hX (by rw [hn]; exact hk) hlo hhi hdv.ne', ?_⟩
      have := (pixels_pos (a := hi - lo) hdv).2 hlt
      simpa using this
    obtain ⟨sp, hsp, -⟩ := fourier_some l s.grid.parDims
    obtain ⟨-, -, -, h4, -⟩ := init_ok hc
    have hdv' : finPart (c.vEdg.get [1]) - finPart (c.vEdg.get [0]) = a.dv := by
      rw [h4]
      simp [vec, finPart, CubeArgs.dv]
    unfold makeCube
    simp only [hc, hdv', logResample, hl, Py.ok_bind, calcFourier, hlen, if_false, hsp, calcLight, hL]
    exact ⟨_, rfl⟩

/-- Pixels of the resampled spectra: evenly spaced in the logarithm of wavelength, `dv / 299792` apart where `dv` is the width of the velocity
bins, starting at the smallest wavelength, all below the largest wavelength and reaching to less than one step below it (or equal). The value of each
spectrum in a pixel is the interpolant through the tabulated spectrum, evaluated at the pixel. -/
theorem C59_pixels (hK : Interpolates K) {n nt nz : ℕ} {t z : ℕ → ℝ} {S : ℕ → ℕ → ℕ → ℝ} (hg : GridIs s.grid n nt nz t z S)
    (hn : s.grid.lmd.length = n) (hc : (makeCube K a s).1 = .ok cube) (ha : 0 < binWidth a) :
    ∃ l lo hi, (makeCube K a s).2.log = some l ∧ IsLeast {x | x ∈ s.grid.lmd.map Real.log} lo ∧
      IsGreatest {x | x ∈ s.grid.lmd.map Real.log} hi ∧ 0 < l.w.length ∧
      (∀ i < l.w.length, l.w.getD i 0 = lo + i * (binWidth a / 299792) ∧ l.w.getD i 0 < hi) ∧
      hi ≤ lo + l.w.length * (binWidth a / 299792) ∧ l.dv = binWidth a ∧ l.Xw.shape = [l.w.length, nz * nt] ∧
      ∀ k < l.w.length, ∀ i < nz, ∀ j < nt, l.Xw.get [k, i * nt + j] =
        K.eval a.kind (s.grid.lmd.map Real.log) (fun m => S m i j) (l.w.getD k 0) := by
  obtain ⟨l, lw, hl, hlen, -, hs, -⟩ := makeCube_ok hc
  have hX : s.grid.X.shape.headD 0 = s.grid.lmd.length := by rw [hg.xShape, hn]; rfl
  have hne : s.grid.lmd ≠ [] := by
    intro h0
    unfold resampled at hl
    obtain ⟨_, _, hl⟩ := bind_ok hl
    obtain ⟨_, hl, _⟩ := bind_ok hl
    simp [h0, amin] at hl
  have hk : K.check a.kind s.grid.lmd.length = .ok () := by
    unfold resampled at hl
    obtain ⟨_, h1, _⟩ := bind_ok hl
    rw [List.length_map, if_pos hX] at h1
    exact h1
  obtain ⟨lo, hlo⟩ := least_exists (l := s.grid.lmd.map Real.log) (by simpa using hne)
  obtain ⟨hi, hhi⟩ := greatest_exists (l := s.grid.lmd.map Real.log) (by simpa using hne)
  have hd : 0 < binWidth a / 299792 := by positivity
  have hl' := resampled_is (K := K) (kind := a.kind) hX hk hlo hhi (ne_of_gt ha)
  change resampled K (binWidth a) _ _ = _ at hl
  rw [hl] at hl'
  injection hl' with hl'
  have hN : l.w.length = ⌈(hi - lo) / (binWidth a / 299792)⌉.toNat := by rw [hl']; simp
  have hget : ∀ i < l.w.length, l.w.getD i 0 = lo + i * (binWidth a / 299792) := by
    intro i hi'
    rw [hN] at hi'
    rw [hl']
    show (List.map _ (List.range _)).getD i 0 = _
    rw [List.getD_eq_getElem?_getD, List.getElem?_map, List.getElem?_range hi']
    rfl
  have hlt : ∀ i < l.w.length, l.w.getD i 0 < hi := by
    intro i hi'
    rw [hget i hi']
    rw [hN] at hi'
    have h1 : (i : ℤ) < ⌈(hi - lo) / (binWidth a / 299792)⌉ := by omega
    have h2 := Int.lt_ceil.1 h1
    rw [lt_div_iff₀ hd] at h2
    push_cast at h2
    linarith
  refine ⟨l, lo, hi, by rw [hs], hlo, hhi, Nat.pos_of_ne_zero hlen, fun i hi' => ⟨hget i hi', hlt i hi'⟩, ?_, (resampled_dv hl).1, ?_, ?_⟩
  · have h1 := Int.le_ceil ((hi - lo) / (binWidth a / 299792))
    rw [div_le_iff₀ hd] at h1
    have h2 : (⌈(hi - lo) / (binWidth a / 299792)⌉ : ℤ) = (l.w.length : ℤ) := by
      rw [hN]
      have : 0 ≤ ⌈(hi - lo) / (binWidth a / 299792)⌉ := by
        by_contra hneg
        rw [hN] at hlen
        omega
      omega
    rw [h2] at h1
    push_cast at h1
    linarith
  · rw [hN]
    rw [hl', hg.xShape]
    rfl
  · intro k hk' i hi' j hj'
    have e : l.Xw.get [k, i * nt + j] = if l.w.getD k 0 < lo ∨ hi < l.w.getD k 0 then 0 else
        K.eval a.kind (s.grid.lmd.map Real.log) (fun m => finPart (s.grid.X.get [m, i * nt + j])) (l.w.getD k 0) := by
      rw [hl']; rfl
    have h1 : ¬ (l.w.getD k 0 < lo ∨ hi < l.w.getD k 0) := by
      rintro (h | h)
      · rw [hget k hk'] at h
        have : (0 : ℝ) ≤ k * (binWidth a / 299792) := by positivity
        linarith
      · linarith [hlt k hk']
    rw [e, if_neg h1]
    refine congrFun (hK.loc _ _ _ _ fun m hm => ?_) _
    rw [List.length_map, hn] at hm
    rw [hg.x m hm i hi' j hj']
    rfl

/-- One pixel is one velocity bin: neighbouring pixels have wavelengths in ratio `exp(dv / c)`. -/
theorem C59_doppler (hK : Interpolates K) {n nt nz : ℕ} {t z : ℕ → ℝ} {S : ℕ → ℕ → ℕ → ℝ} (hg : GridIs s.grid n nt nz t z S)
    (hn : s.grid.lmd.length = n) (hc : (makeCube K a s).1 = .ok cube) (ha : 0 < binWidth a) :
    ∃ l, (makeCube K a s).2.log = some l ∧ ∀ i, i + 1 < l.w.length →
      Real.exp (l.w.getD (i + 1) 0) / Real.exp (l.w.getD i 0) = Real.exp (binWidth a / 299792) := by
  obtain ⟨l, lo, hi, h1, -, -, -, h2, -⟩ := C59_pixels hK hg hn hc ha
  refine ⟨l, h1, fun i hi' => ?_⟩
  rw [(h2 (i + 1) hi').1, (h2 i (by omega)).1, ← Real.exp_sub]
  congr 1
  push_cast
  ring

/-- Pixels that coincide with a tabulated wavelength hold the tabulated spectrum. -/
theorem C59_tabulated (hK : Interpolates K) {n nt nz : ℕ} {t z : ℕ → ℝ} {S : ℕ → ℕ → ℕ → ℝ} (hg : GridIs s.grid n nt nz t z S)
    (hn : s.grid.lmd.length = n) (hsort : s.grid.lmd.Pairwise (· < ·)) (hpos : ∀ x ∈ s.grid.lmd, 0 < x)
    (hc : (makeCube K a s).1 = .ok cube) (ha : 0 < binWidth a) :
    ∃ l, (makeCube K a s).2.log = some l ∧ ∀ k < l.w.length, ∀ m < n, l.w.getD k 0 = Real.log (s.grid.lmd.getD m 0) →
      ∀ i < nz, ∀ j < nt, l.Xw.get [k, i * nt + j] = S m i j := by
  obtain ⟨l, lo, hi, h1, -, -, -, -, -, -, -, h2⟩ := C59_pixels hK hg hn hc ha
  refine ⟨l, h1, fun k hk m hm hw i hi' j hj' => ?_⟩
  have hchk : K.check a.kind (s.grid.lmd.map Real.log).length = .ok () := by
    obtain ⟨l, lw, hl, -⟩ := makeCube_ok hc
    unfold resampled at hl
    obtain ⟨_, h1, _⟩ := bind_ok hl
    split_ifs at h1
    exact h1
  have e : Real.log (s.grid.lmd.getD m 0) = (s.grid.lmd.map Real.log).getD m 0 := by
    rw [List.getD_eq_getElem?_getD, List.getD_eq_getElem?_getD, List.getElem?_map, List.getElem?_eq_getElem (by rw [hn]; exact hm)]
    rfl
  rw [h2 k hk i hi' j hj', hw, e]
  refine hK.nodes _ _ (fun m => S m i j) m hchk ?_ (by rw [List.length_map, hn]; exact hm)
  rw [List.pairwise_map]
  exact hsort.imp_of_mem fun {x y} hx _ hxy => Real.log_lt_log (hpos x hx) hxy

/-- A cube just constructed is ready for datacubes: evaluating a component on it uses spectra `S'` that are the resampled SSPs, with the
resolution of the cube, in the form the theorems about datacubes (C23 to C26) assume. -/
theorem C59_ready (hK : Interpolates K) {n nt nz : ℕ} {t z : ℕ → ℝ} {S : ℕ → ℕ → ℕ → ℝ} (hg : GridIs s.grid n nt nz t z S)
    (hn : s.grid.lmd.length = n) (hc : (makeCube K a s).1 = .ok cube) (ha : 0 < binWidth a) :
    ∃ l sp, (makeCube K a s).2.log = some l ∧ sp.dv = binWidth a ∧
      SpectraAre sp (cubeGrid nt nz t z a.nx.toNat a.ny.toNat a.nv.toNat a.x1rng a.x2rng a.vrng)
        (fun i j k => K.eval a.kind (s.grid.lmd.map Real.log) (fun m => S m j i) (l.w.getD k 0)) l.w.length l.w.length ∧
      CubeIs cube (cubeGrid nt nz t z a.nx.toNat a.ny.toNat a.nv.toNat a.x1rng a.x2rng a.vrng) ∧
      ∀ interp self batch, evaluateShared interp self (makeCube K a s).2 batch = evaluateYbar interp self sp batch := by
  obtain ⟨l, lo, hi, h1, -, -, -, -, -, hdv, hsh, h2⟩ := C59_pixels hK hg hn hc ha
  obtain ⟨l', lw, hl, hlen, hlw, hs, hinit⟩ := makeCube_ok hc
  obtain rfl : l' = l := by
    rw [hs] at h1
    simpa using h1
  obtain ⟨sp, hsp, hspA, hspdv⟩ := C23_spectra (g := cubeGrid nt nz t z a.nx.toNat a.ny.toNat a.nv.toNat a.x1rng a.x2rng a.vrng)
    (S := fun i j k => K.eval a.kind (s.grid.lmd.map Real.log) (fun m => S m j i) (l'.w.getD k 0)) (Xw := l'.Xw) l'.dv hsh
    (fun k hk i hi' j hj' => h2 k hk j hj' i hi')
  refine ⟨l', sp, h1, hspdv.trans hdv, hspA, ?_, ?_⟩
  · obtain ⟨p1, p2, p3, -⟩ := init_ok hinit
    have hA : SspsAre (⟨s.grid, some l', fftOf s.grid.parDims l', some lw⟩ : SharedSsps).toSSPs nt nz t z :=
      ⟨hg.tEdges, hg.zEdges, hg.tCents, hg.zCents, hg.deltaT, hg.deltaZ⟩
    obtain ⟨c, e1, e2, -⟩ := C03_constructor hA a.nx.toNat a.ny.toNat a.nv.toNat (by omega) (by omega) (by omega) a.x1rng a.x2rng a.vrng
    rw [Int.toNat_of_nonneg p1.le, Int.toNat_of_nonneg p2.le, Int.toNat_of_nonneg p3.le, hinit] at e1
    injection e1 with e1
    rw [e1]
    exact e2
  · intro interp self batch
    obtain ⟨sp', hsp', hsp''⟩ := fourier_some l' s.grid.parDims
    have : sp' = sp := by
      rw [hg.dims] at hsp'
      have := hsp'.symm.trans hsp
      injection this
    subst this
    rw [hs]
    simp only [evaluateShared, fftOf, hsp']
    rw [hsp'']

/-- Without extent in velocity there is no cube, and nothing is stored. -/
theorem C59_no_range (hr : a.vrng.1 = a.vrng.2) : ∃ e, makeCube K a s = (.error e, s) := by
  rcases makeCube_cases K a s with h | ⟨l, hl, -⟩
  · exact h
  · have := (resampled_dv hl).2.1
    simp [CubeArgs.dv, hr] at this

/-! ### Non-vacuity -/

/-- An interpolation with the assumed properties (any kind, any number of points): the given value at the points and 0 elsewhere. -/
def pointsK : Interp1d where
  check _ _ := .ok ()
  eval _ x Y w := if x.idxOf w < x.length then Y (x.idxOf w) else 0

theorem pointsK_interpolates : Interpolates pointsK where
  loc := by
    intro kind x Y Y' h
    funext w
    simp only [pointsK]
    split_ifs with h1
    · exact h _ h1
    · rfl
  nodes := by
    intro kind x Y j _ hs hj
    have hnd : x.Nodup := hs.imp fun h => h.ne
    have e : x.idxOf (x.getD j 0) = j := by
      rw [List.getD_eq_getElem?_getD, List.getElem?_eq_getElem hj]
      exact hnd.idxOf_getElem j hj
    simp only [pointsK, e, hj, if_true]

/-- A grid read from the demonstration data. -/
theorem demoShared : ∃ g t z S, SspGrid.init0 demoData = .ok g ∧ GridIs g 2 4 3 t z S ∧ g.lmd = [5000, 5001] := by
  obtain ⟨g, h1, h2, h3, -⟩ := init0_is (nt := 2) (nz := 1) demoData_are (by norm_num) (by norm_num)
  exact ⟨g, _, _, _, h1, h2, h3⟩

/-- Seven velocity bins of width `d` around zero. -/
def demoArgs (d : ℝ) : CubeArgs := ⟨2, 3, 7, (-1, 1), (0, 3), (-(7 / 2 * d), 7 / 2 * d), "cubic".toList⟩

theorem demoArgs_width (d : ℝ) : binWidth (demoArgs d) = d := by
  simp only [binWidth, demoArgs]
  push_cast
  ring

theorem demoArgs_zero (d : ℝ) : ∃ i < (demoArgs d).nv.toNat, |binCentre (demoArgs d) i| ≤ 1 / 10 ^ 8 := by
  refine ⟨3, by simp [demoArgs], ?_⟩
  have : binCentre (demoArgs d) 3 = 0 := by
    rw [binCentre, demoArgs_width]
    simp only [demoArgs]
    push_cast
    ring
  rw [this]
  norm_num

/-- Cubes of every positive resolution can be constructed, after any history. -/
theorem demo_constructed {g : SspGrid} {t z : ℕ → ℝ} {S : ℕ → ℕ → ℕ → ℝ} (hg : GridIs g 2 4 3 t z S) (hl : g.lmd = [5000, 5001])
    (h : List CubeArgs) {d : ℝ} (hd : 0 < d) : ∃ c, (makeCube pointsK (demoArgs d) (afterCubes pointsK h (fresh g))).1 = .ok c := by
  refine (C59_constructed (n := 2) (nt := 4) (nz := 3) (t := t) (z := z) (S := S) (by rw [afterCubes_grid]; exact hg)
    (by rw [afterCubes_grid]; simp [fresh, hl]) (by rw [afterCubes_grid]; simp [fresh, hl]) (by simp [demoArgs]) (by simp [demoArgs])
    (by simp [demoArgs]) ?_).2 ⟨rfl, 5000, by rw [afterCubes_grid]; simp [fresh, hl], 5001, by rw [afterCubes_grid]; simp [fresh, hl], by norm_num⟩
  show -(7 / 2 * d) < 7 / 2 * d
  linarith

/-- Instance: a cube with bins of 20 km/s, then one with bins of 25 km/s on the same SSPs. Evaluating a component on the first raises. -/
example : ∃ g c1 c2, SspGrid.init0 demoData = .ok g ∧ (makeCube pointsK (demoArgs 20) (fresh g)).1 = .ok c1 ∧
    (makeCube pointsK (demoArgs 25) (makeCube pointsK (demoArgs 20) (fresh g)).2).1 = .ok c2 ∧
    ∀ interp stored batch, evaluateShared interp (baseSelf c1 stored)
      (makeCube pointsK (demoArgs 25) (makeCube pointsK (demoArgs 20) (fresh g)).2).2 batch = .error .valueError := by
  obtain ⟨g, t, z, S, hi, hg, hl⟩ := demoShared
  obtain ⟨c1, h1⟩ := demo_constructed hg hl [] (d := 20) (by norm_num)
  obtain ⟨c2, h2⟩ := demo_constructed hg hl [demoArgs 20] (d := 25) (by norm_num)
  refine ⟨g, c1, c2, hi, h1, h2, fun interp stored batch => C50_second h1 h2 ?_ (demoArgs_zero 20) interp rfl batch⟩
  rw [demoArgs_width, demoArgs_width, SameResolution]
  norm_num [abs_of_neg]

/-- Instance: the failed construction of a cube with descending velocities spoils the first cube. -/
example : ∃ g c1, (makeCube pointsK (demoArgs 20) (fresh g)).1 = .ok c1 ∧ ∀ interp stored batch,
    (makeCube pointsK (demoArgs (-20)) (makeCube pointsK (demoArgs 20) (fresh g)).2).1 = .error .valueError ∧
    evaluateShared interp (baseSelf c1 stored)
      (makeCube pointsK (demoArgs (-20)) (makeCube pointsK (demoArgs 20) (fresh g)).2).2 batch = .error .valueError := by
  obtain ⟨g, t, z, S, hi, hg, hl⟩ := demoShared
  obtain ⟨c1, h1⟩ := demo_constructed hg hl [] (d := 20) (by norm_num)
  refine ⟨g, c1, h1, fun interp stored batch => C50_failed (b := demoArgs (-20)) (self := baseSelf c1 stored) h1
    (by rw [demoArgs_width]; norm_num) ?_ (by simp [demoArgs])
    (by simp [demoArgs]) (by simp [demoArgs]) rfl (demoArgs_zero 20) interp rfl batch⟩
  show (7 / 2 * (-20) : ℝ) < -(7 / 2 * (-20))
  norm_num

/-- Instance: the first pixel of a cube with bins of 20 km/s is at 5000, where it holds the tabulated spectra. -/
example : ∃ g c1 l t z S, (makeCube pointsK (demoArgs 20) (fresh g)).1 = .ok c1 ∧
    (makeCube pointsK (demoArgs 20) (fresh g)).2.log = some l ∧ 0 < l.w.length ∧ l.w.getD 0 0 = Real.log 5000 ∧
    GridIs g 2 4 3 t z S ∧ ∀ i < 3, ∀ j < 4, l.Xw.get [0, i * 4 + j] = S 0 i j := by
  obtain ⟨g, t, z, S, hi, hg, hl⟩ := demoShared
  obtain ⟨c1, h1⟩ := demo_constructed hg hl [] (d := 20) (by norm_num)
  obtain ⟨l, lo, hi', e1, e2, -, e4, e5, -⟩ := C59_pixels (n := 2) pointsK_interpolates (s := fresh g) hg (by simp [fresh, hl]) h1
    (by rw [demoArgs_width]; norm_num)
  obtain ⟨l', e1', e7⟩ := C59_tabulated (n := 2) pointsK_interpolates (s := fresh g) hg (by simp [fresh, hl]) (by simp [fresh, hl]; norm_num)
    (by simp [fresh, hl]) h1 (by rw [demoArgs_width]; norm_num)
  obtain rfl : l = l' := by
    rw [e1] at e1'
    simpa using e1'
  have hlo : lo = Real.log 5000 := by
    have hm : (fresh g).grid.lmd.map Real.log = [Real.log 5000, Real.log 5001] := by simp [fresh, hl]
    rw [hm] at e2
    have h3 : Real.log 5000 < Real.log 5001 := Real.log_lt_log (by norm_num) (by norm_num)
    have h4 := e2.1
    simp only [Set.mem_setOf_eq, List.mem_cons, List.not_mem_nil, or_false] at h4
    rcases h4 with h4 | h4
    · exact h4
    · have := e2.2 (show Real.log 5000 ∈ {x | x ∈ [Real.log 5000, Real.log 5001]} by simp)
      linarith
  have h0 : l.w.getD 0 0 = Real.log 5000 := by
    rw [(e5 0 e4).1, hlo]
    simp
  exact ⟨g, c1, l, t, z, S, h1, e1, e4, h0, hg, e7 0 e4 0 (by norm_num) (by rw [h0]; simp [fresh, hl])⟩

end PKM
