import Verif.Props.GivenOnly

/-!
# C100: what the spectra of the library contribute to the datacube

The datacube is linear in the spectra; spectra of stars that are not there do not matter; spectra without features show no velocities; and if all stars have
the same spectrum, only velocities and positions matter.
-/

open scoped Classical

noncomputable section

namespace PKM
open Np Component

/-! ### Specification -/

/-- All three calls return arrays of shape `(n, nx, ny)`, and the third is `a` times the first plus `b` times the second. -/
def SumFlux (a b : ℝ) (r r' r'' : Py (Arr Num)) (n nx ny : ℕ) : Prop :=
  ∃ y y' y'', r = .ok y ∧ r' = .ok y' ∧ r'' = .ok y'' ∧ y.shape = [n, nx, ny] ∧ y'.shape = [n, nx, ny] ∧ y''.shape = [n, nx, ny] ∧
    ∀ k < n, ∀ i < nx, ∀ j < ny, ∃ u u' : ℝ, y.get [k, i, j] = .fin u ∧ y'.get [k, i, j] = .fin u' ∧ y''.get [k, i, j] = .fin (a * u + b * u')

/-- Both calls return arrays of shape `(n, nx, ny)` with the same numbers in the pixels where `ok`. -/
def SameSpectrum (ok : ℕ → ℕ → Prop) (r r' : Py (Arr Num)) (n nx ny : ℕ) : Prop :=
  ∃ y y', r = .ok y ∧ r' = .ok y' ∧ y.shape = [n, nx, ny] ∧ y'.shape = [n, nx, ny] ∧
    ∀ k < n, ∀ i < nx, ∀ j < ny, ok i j → ∃ u : ℝ, y.get [k, i, j] = .fin u ∧ y'.get [k, i, j] = .fin u

/-- The call returns an array of shape `(n, nx, ny)`, with the value `F i j` at all wavelengths of the pixel. -/
def FlatSpectrum (F : ℕ → ℕ → ℝ) (r : Py (Arr Num)) (n nx ny : ℕ) : Prop :=
  ∃ y, r = .ok y ∧ y.shape = [n, nx, ny] ∧ ∀ k < n, ∀ i < nx, ∀ j < ny, y.get [k, i, j] = .fin (F i j)

/-- The batch modes of `evaluate_ybar`. -/
def batches : List PyStr := ["none".toList, "column".toList, "spaxel".toList]

variable {g : Grid} {L L' L'' : ℕ → ℕ → ℝ} {p p' p'' : Param} {m : Ingredients} {S S' : ℕ → ℕ → ℕ → ℝ} {n v0 : ℕ} {interp : ℕ → (ℕ → ℂ) → ℝ → ℂ}
  {sp sp' sp'' : Spectra} {cube cube' cube'' : IFUCube} {stored stored' stored'' : Arr Num} {ρ ρ' : Cell → ℝ}

/-! ### Lemmas -/

theorem sumFlux_of {r r' r'' : Py (Arr Num)} {n nx ny : ℕ} {f f' f'' : ℕ → ℕ → ℕ → ℝ} {a b : ℝ}
    (h : ∃ y, r = .ok y ∧ Is3 y n nx ny (fun k x y => .fin (f k x y))) (h' : ∃ y, r' = .ok y ∧ Is3 y n nx ny (fun k x y => .fin (f' k x y)))
    (h'' : ∃ y, r'' = .ok y ∧ Is3 y n nx ny (fun k x y => .fin (f'' k x y))) (e : ∀ k x y, f'' k x y = a * f k x y + b * f' k x y) :
    SumFlux a b r r' r'' n nx ny := by
  obtain ⟨y, h1, h2, h3⟩ := h
  obtain ⟨y', h1', h2', h3'⟩ := h'
  obtain ⟨y'', h1'', h2'', h3''⟩ := h''
  exact ⟨y, y', y'', h1, h1', h1'', h2, h2', h2'', fun k hk i hi j hj => ⟨_, _, h3 k hk i hi j hj, h3' k hk i hi j hj,
    (h3'' k hk i hi j hj).trans (congrArg Num.fin (e k i j))⟩⟩

theorem sameSpectrum_of {r r' : Py (Arr Num)} {n nx ny : ℕ} {f f' : ℕ → ℕ → ℕ → ℝ} {ok : ℕ → ℕ → Prop}
    (h : ∃ y, r = .ok y ∧ Is3 y n nx ny (fun k x y => .fin (f k x y))) (h' : ∃ y, r' = .ok y ∧ Is3 y n nx ny (fun k x y => .fin (f' k x y)))
    (e : ∀ k < n, ∀ x < nx, ∀ y < ny, ok x y → f' k x y = f k x y) : SameSpectrum ok r r' n nx ny := by
  obtain ⟨y, h1, h2, h3⟩ := h
  obtain ⟨y', h1', h2', h3'⟩ := h'
  exact ⟨y, y', h1, h1', h2, h2', fun k hk i hi j hj o => ⟨_, h3 k hk i hi j hj, (h3' k hk i hi j hj).trans (congrArg Num.fin (e k hk i hi j hj o))⟩⟩

theorem flatSpectrum_of {r : Py (Arr Num)} {n nx ny : ℕ} {f : ℕ → ℕ → ℕ → ℝ} {F : ℕ → ℕ → ℝ}
    (h : ∃ y, r = .ok y ∧ Is3 y n nx ny (fun k x y => .fin (f k x y))) (e : ∀ k < n, ∀ x < nx, ∀ y < ny, f k x y = F x y) : FlatSpectrum F r n nx ny := by
  obtain ⟨y, h1, h2, h3⟩ := h
  exact ⟨y, h1, h2, fun k hk i hi j hj => (h3 k hk i hi j hj).trans (congrArg Num.fin (e k hk i hi j hj))⟩

theorem padded_self (s : ℕ → ℝ) (w : ℕ) : Fft.rfft n n (padded n s) w = Fft.rfft n n s w := by
  rw [Fft.rfft_eq, Fft.rfft_eq]
  exact Finset.sum_congr rfl fun j hj => by rw [padded, if_pos (Finset.mem_range.1 hj)]

theorem rfft_const (hn : 0 < n) (s : ℝ) {w : ℕ} (hw : w < Fft.half n) (h0 : w ≠ 0) : Fft.rfft n n (fun _ => s) w = 0 := by
  rw [Fft.rfft_eq, ← Finset.mul_sum]
  by_cases h1 : n = 1
  · subst h1
    unfold Fft.half at hw
    omega
  have e := Fft.sum_root hn (-(w : ℤ))
  rw [if_neg] at e
  · have : ∀ j : ℕ, -((w : ℤ) * j) = -(w : ℤ) * j := fun j => by ring
    simp only [this, e, mul_zero]
  · rw [Int.dvd_neg, Int.natCast_dvd_natCast]
    intro hd
    have := Nat.le_of_dvd (by omega) hd
    unfold Fft.half at hw
    omega

/-- Transforms that are 0 except at frequency 0 are those of constants. -/
theorem irfft_point (hn : 0 < n) (Y : ℕ → ℂ) (hY : ∀ w < Fft.half n, w ≠ 0 → Y w = 0) (k : ℕ) : Fft.irfft n Y k = (Y 0).re / n := by
  unfold Fft.irfft
  rw [Finset.sum_eq_zero fun j hj => ?_, add_zero]
  obtain ⟨h1, h2⟩ := Finset.mem_Ico.1 hj
  rw [hY j h2 (by omega)]
  simp


theorem interp_zero (hI : Interp interp) {m : ℕ} {Y : ℕ → ℂ} (hY : ∀ j, Y j = 0) (x : ℝ) : interp m Y x = 0 := by
  rw [show Y = fun _ => (0 : ℂ) from funext hY, hI.const]

theorem irfft_null {Y : ℕ → ℂ} (hY : ∀ j, Y j = 0) (k : ℕ) : Fft.irfft n Y k = 0 := by
  simp [Fft.irfft, hY]

theorem rfft_null {s : ℕ → ℝ} (hs : ∀ j < n, s j = 0) (w : ℕ) : Fft.rfft n n s w = 0 := by
  rw [Fft.rfft_eq]
  exact Finset.sum_eq_zero fun j hj => by rw [hs j (Finset.mem_range.1 hj)]; simp

/-- What the velocity bins of one age, pixel and metallicity make of a spectrum. -/
def broad (interp : ℕ → (ℕ → ℂ) → ℝ → ℂ) (nv n : ℕ) (dv : ℝ) (s : ℕ → ℝ) (f : ℕ → ℝ) (k : ℕ) : ℝ :=
  Fft.irfft n (fun w => Fft.rfft n n s w * interp (Fft.half nv) (fun j => Fft.rfft nv nv f j * (dv : ℂ)) ((w : ℝ) / ((Fft.half n : ℕ) - 1 : ℝ))) k

theorem ybarFT_broad (dv : ℝ) (k x y : ℕ) : ybarFT interp g S ρ n n v0 dv k x y =
    (∑ t : Fin g.nt, ∑ z : Fin g.nz, broad interp g.nv n dv (S t z) (fun i => ρ ⟨t, (i + v0) % g.nv, x, y, z⟩) k * (width g.t t * width g.z z)) *
      width g.x x * width g.y y := rfl

theorem broad_congr {nv : ℕ} {dv : ℝ} {s s' f : ℕ → ℝ} (h : ∀ k < n, s k = s' k) (k : ℕ) :
    broad interp nv n dv s f k = broad interp nv n dv s' f k := by
  unfold broad
  simp only [rfft_congr h]

theorem broad_sum {nv : ℕ} {dv : ℝ} {s s' f : ℕ → ℝ} (a b : ℝ) (k : ℕ) :
    broad interp nv n dv (fun k => a * s k + b * s' k) f k = a * broad interp nv n dv s f k + b * broad interp nv n dv s' f k := by
  unfold broad
  rw [← Fft.irfft_linear]
  simp only [Fft.rfft_linear, add_mul, mul_assoc]

theorem broad_linear (hI : Interp interp) {nv : ℕ} {dv : ℝ} {s f f' : ℕ → ℝ} (a b : ℝ) (k : ℕ) :
    broad interp nv n dv s (fun i => a * f i + b * f' i) k = a * broad interp nv n dv s f k + b * broad interp nv n dv s f' k := by
  unfold broad
  rw [← Fft.irfft_linear]
  refine congrArg (fun φ => Fft.irfft n φ k) (funext fun w => ?_)
  have e : (fun j => Fft.rfft nv nv (fun i => a * f i + b * f' i) j * (dv : ℂ)) =
      fun j => (a : ℂ) * (Fft.rfft nv nv f j * dv) + b * (Fft.rfft nv nv f' j * dv) := by
    funext j
    rw [Fft.rfft_linear]
    ring
  rw [e, hI.linear]
  ring

theorem broad_null (hI : Interp interp) {nv : ℕ} {dv : ℝ} {s f : ℕ → ℝ} (hf : ∀ i < nv, f i = 0) (k : ℕ) : broad interp nv n dv s f k = 0 := by
  unfold broad
  refine irfft_null (fun w => ?_) k
  rw [interp_zero hI fun j => by rw [rfft_null hf, zero_mul], mul_zero]

theorem broad_total (hI : Interp interp) {nv : ℕ} {dv : ℝ} {s : ℕ → ℝ} {ι : Type} (I : Finset ι) (c : ι → ℝ) (f : ι → ℕ → ℝ) (k : ℕ) :
    ∑ i ∈ I, c i * broad interp nv n dv s (f i) k = broad interp nv n dv s (fun v => ∑ i ∈ I, c i * f i v) k := by
  induction I using Finset.induction_on with
  | empty =>
    simp only [Finset.sum_empty]
    exact (broad_null hI (fun _ _ => rfl) k).symm
  | insert a I ha ih =>
    rw [Finset.sum_insert ha, ih]
    have := broad_linear (n := n) hI (nv := nv) (dv := dv) (s := s) (f := f a) (f' := fun v => ∑ i ∈ I, c i * f i v) (c a) 1 k
    simp only [one_mul] at this
    rw [← this]
    exact congrArg (fun φ => broad interp nv n dv s φ k) (funext fun v => by rw [Finset.sum_insert ha])

theorem broad_const (hI : Interp interp) {nv : ℕ} {dv s : ℝ} {f : ℕ → ℝ} (hn : 0 < n) (hm : 4 ≤ Fft.half nv) (k : ℕ) :
    broad interp nv n dv (fun _ => s) f k = s * ((∑ i ∈ Finset.range nv, f i) * dv) := by
  unfold broad
  rw [irfft_point hn _ fun w hw h0 => by rw [rfft_const hn s hw h0, zero_mul]]
  have e := hI.nodes (Fft.half nv) (fun j => Fft.rfft nv nv f j * (dv : ℂ)) 0 hm (by omega)
  simp only [Nat.cast_zero, zero_div] at e ⊢
  rw [e, Fft.rfft_zero _ _ _ le_rfl, Fft.rfft_zero _ _ _ le_rfl, ← Complex.ofReal_mul, ← Complex.ofReal_mul, Complex.ofReal_re]
  have : (n : ℝ) ≠ 0 := by exact_mod_cast hn.ne'
  simp only [Finset.sum_const, Finset.card_range, nsmul_eq_mul]
  field_simp

theorem freq_zero : Param.freq sp n 0 = 0 := by simp [Param.freq]

theorem freq_dv (h : sp'.dv = sp.dv) : Param.freq sp' n = Param.freq sp n := by
  funext w
  unfold Param.freq
  rw [h]

/-- What a Gaussian makes of a spectrum. -/
def blur (sp : Spectra) (n : ℕ) (s : ℕ → ℝ) (mu sig : ℝ) (k : ℕ) : ℝ :=
  Fft.irfft n (fun w => Fft.rfft n n s w * gaussFT mu sig (Param.freq sp n w)) k

theorem ybarOf_blur (k x y : ℕ) : Param.ybarOf g m sp S n n k x y =
    ∑ t : Fin g.nt, ∑ z : Fin g.nz, m.probTXZ g ⟨t, 0, x, y, z⟩ * blur sp n (S t z) (m.mu t x y) (m.sig t x y) k := by
  rw [ybarOf_eq]
  simp only [padded_self]
  rfl

theorem blur_dv (h : sp'.dv = sp.dv) (s : ℕ → ℝ) (mu sig : ℝ) (k : ℕ) : blur sp' n s mu sig k = blur sp n s mu sig k := by
  unfold blur
  rw [freq_dv h]

theorem blur_congr {s s' : ℕ → ℝ} (h : ∀ k < n, s k = s' k) (mu sig : ℝ) (k : ℕ) : blur sp n s mu sig k = blur sp n s' mu sig k := by
  unfold blur
  simp only [rfft_congr h]

theorem blur_sum {s s' : ℕ → ℝ} (a b mu sig : ℝ) (k : ℕ) :
    blur sp n (fun k => a * s k + b * s' k) mu sig k = a * blur sp n s mu sig k + b * blur sp n s' mu sig k := by
  unfold blur
  rw [← Fft.irfft_linear]
  simp only [Fft.rfft_linear, add_mul, mul_assoc]

theorem blur_const (hn : 0 < n) (s mu sig : ℝ) (k : ℕ) : blur sp n (fun _ => s) mu sig k = s := by
  unfold blur
  rw [irfft_point hn _ fun w hw h0 => by rw [rfft_const hn s hw h0, zero_mul]]
  rw [freq_zero, gaussFT_zero, mul_one, Fft.rfft_zero _ _ _ le_rfl, Complex.ofReal_re]
  have : (n : ℝ) ≠ 0 := by exact_mod_cast hn.ne'
  simp only [Finset.sum_const, Finset.card_range, nsmul_eq_mul]
  field_simp

/-- The three batch modes return the datacube of `ybarFT`. -/
theorem plain_batches (hI : Interp interp) (h : BaseIs cube stored g ρ L) (hn : 0 < n) (hS : SpectraAre sp g S n n) (h0 : ZeroBin g.nv g.v v0)
    (hv : VelocityOk g.nv g.v sp.dv v0) (hm : 6 ≤ g.nv) {batch : PyStr} (hb : batch ∈ batches) :
    ∃ y, evaluateYbar interp (baseSelf cube stored) sp batch = .ok y ∧
      Is3 y n g.nx g.ny (fun k x y => .fin (ybarFT interp g S ρ n n v0 sp.dv k x y)) := by
  have hhalf : 4 ≤ Fft.half g.nv := by unfold Fft.half; omega
  obtain ⟨e1, e2, e3, -⟩ := (evaluateYbar_is hI.loc h hn hS h0 hv).2 hhalf
  simp only [batches, List.mem_cons, List.not_mem_nil, or_false] at hb
  rcases hb with rfl | rfl | rfl
  exacts [e1, e2 rfl, e3 rfl]

theorem param_batches (h : ParamIs p g m L) (hn : 0 < n) (hS : SpectraAre sp g S n n) {batch : PyStr} (hb : batch ∈ batches) :
    ∃ y, p.evaluateYbar sp batch = .ok y ∧ Is3 y n g.nx g.ny (fun k x y => .fin (Param.ybarOf g m sp S n n k x y)) := by
  obtain ⟨e1, e2, e3, -⟩ := Param.evaluateYbar_is h hn hS
  simp only [batches, List.mem_cons, List.not_mem_nil, or_false] at hb
  rcases hb with rfl | rfl | rfl
  exacts [e1, e2 rfl, e3 rfl]

theorem sum_shift {nv : ℕ} (hnv : 0 < nv) (f : ℕ → ℝ) (v0 : ℕ) : ∑ i ∈ Finset.range nv, f ((i + v0) % nv) = ∑ v : Fin nv, f v :=
  sum_roll hnv f v0

/-! ### Linear in the spectra -/

/-- With the spectra `a S + b S'` the datacube of a plain component is `a` times that with `S` plus `b` times that with `S'`, in all batch modes. -/
theorem C100_plain_linear (hI : Interp interp) (h : BaseIs cube stored g ρ L) (h' : BaseIs cube' stored' g ρ L') (h'' : BaseIs cube'' stored'' g ρ L'')
    (hn : 0 < n) (a b : ℝ) (hS : SpectraAre sp g S n n) (hS' : SpectraAre sp' g S' n n)
    (hS'' : SpectraAre sp'' g (fun t z k => a * S t z k + b * S' t z k) n n) (hdv' : sp'.dv = sp.dv) (hdv'' : sp''.dv = sp.dv)
    (h0 : ZeroBin g.nv g.v v0) (hv : VelocityOk g.nv g.v sp.dv v0) (hm : 6 ≤ g.nv) : ∀ batch ∈ batches,
      SumFlux a b (evaluateYbar interp (baseSelf cube stored) sp batch) (evaluateYbar interp (baseSelf cube' stored') sp' batch)
        (evaluateYbar interp (baseSelf cube'' stored'') sp'' batch) n g.nx g.ny := by
  intro batch hb
  refine sumFlux_of (plain_batches hI h hn hS h0 hv hm hb) (plain_batches hI h' hn hS' h0 (hdv' ▸ hv) hm hb)
    (plain_batches hI h'' hn hS'' h0 (hdv'' ▸ hv) hm hb) fun k x y => ?_
  simp only [ybarFT_broad, hdv', hdv'', broad_sum]
  simp only [add_mul, Finset.sum_add_distrib, ← mul_assoc, Finset.mul_sum, Finset.sum_mul]

/-- The same for parametric components. -/
theorem C100_parametric_linear (h : ParamIs p g m L) (h' : ParamIs p' g m L') (h'' : ParamIs p'' g m L'') (hn : 0 < n) (a b : ℝ)
    (hS : SpectraAre sp g S n n) (hS' : SpectraAre sp' g S' n n) (hS'' : SpectraAre sp'' g (fun t z k => a * S t z k + b * S' t z k) n n)
    (hdv' : sp'.dv = sp.dv) (hdv'' : sp''.dv = sp.dv) : ∀ batch ∈ batches,
      SumFlux a b (p.evaluateYbar sp batch) (p'.evaluateYbar sp' batch) (p''.evaluateYbar sp'' batch) n g.nx g.ny := by
  intro batch hb
  refine sumFlux_of (param_batches h hn hS hb) (param_batches h' hn hS' hb) (param_batches h'' hn hS'' hb) fun k x y => ?_
  simp only [ybarOf_blur, blur_dv hdv', blur_dv hdv'', blur_sum, Finset.mul_sum, ← Finset.sum_add_distrib]
  exact Finset.sum_congr rfl fun t _ => Finset.sum_congr rfl fun z _ => by ring

/-! ### Spectra of stars that are not there -/

/-- In a pixel of a plain component only the spectra of the stars that are there matter. -/
theorem C100_plain_absent (hI : Interp interp) (h : BaseIs cube stored g ρ L) (h' : BaseIs cube' stored' g ρ L') (hn : 0 < n)
    (hS : SpectraAre sp g S n n) (hS' : SpectraAre sp' g S' n n) (hdv : sp'.dv = sp.dv) (h0 : ZeroBin g.nv g.v v0)
    (hv : VelocityOk g.nv g.v sp.dv v0) (hm : 6 ≤ g.nv) : ∀ batch ∈ batches,
      SameSpectrum (fun x y => ∀ t < g.nt, ∀ z < g.nz, (∃ v < g.nv, ρ ⟨t, v, x, y, z⟩ ≠ 0) → ∀ k < n, S' t z k = S t z k)
        (evaluateYbar interp (baseSelf cube stored) sp batch) (evaluateYbar interp (baseSelf cube' stored') sp' batch) n g.nx g.ny := by
  intro batch hb
  refine sameSpectrum_of (plain_batches hI h hn hS h0 hv hm hb) (plain_batches hI h' hn hS' h0 (hdv ▸ hv) hm hb) fun k _ x _ y _ ho => ?_
  simp only [ybarFT_broad, hdv]
  congr 2
  refine Finset.sum_congr rfl fun t _ => Finset.sum_congr rfl fun z _ => ?_
  congr 1
  by_cases he : ∃ v < g.nv, ρ ⟨t, v, x, y, z⟩ ≠ 0
  · exact broad_congr (ho t t.2 z z.2 he) k
  · push Not at he
    have hz : ∀ i < g.nv, ρ ⟨t, (i + v0) % g.nv, x, y, z⟩ = 0 := fun i _ => he _ (Nat.mod_lt _ h.proper.nv)
    rw [broad_null hI hz, broad_null hI hz]

/-- The same for parametric components. -/
theorem C100_parametric_absent (h : ParamIs p g m L) (h' : ParamIs p' g m L') (hn : 0 < n) (hS : SpectraAre sp g S n n)
    (hS' : SpectraAre sp' g S' n n) (hdv : sp'.dv = sp.dv) : ∀ batch ∈ batches,
      SameSpectrum (fun x y => ∀ t < g.nt, ∀ z < g.nz, m.probTXZ g ⟨t, 0, x, y, z⟩ ≠ 0 → ∀ k < n, S' t z k = S t z k)
        (p.evaluateYbar sp batch) (p'.evaluateYbar sp' batch) n g.nx g.ny := by
  intro batch hb
  refine sameSpectrum_of (param_batches h hn hS hb) (param_batches h' hn hS' hb) fun k _ x _ y _ ho => ?_
  simp only [ybarOf_blur, blur_dv hdv]
  refine Finset.sum_congr rfl fun t _ => Finset.sum_congr rfl fun z _ => ?_
  by_cases he : m.probTXZ g ⟨t, 0, x, y, z⟩ = 0
  · rw [he, zero_mul, zero_mul]
  · rw [blur_congr (ho t t.2 z z.2 he)]

/-! ### Spectra without features -/

/-- If no spectrum has features, the datacube of a plain component has none, and no trace of the velocities: the flux of a pixel is the sum of the fluxes of
its stars. -/
theorem C100_plain_featureless (hI : Interp interp) (h : BaseIs cube stored g ρ L) (hn : 0 < n) (hS : SpectraAre sp g S n n) (h0 : ZeroBin g.nv g.v v0)
    (hw : ∀ i < g.nv, width g.v i = sp.dv) (hmid : v0 = g.nv / 2) (hm : 6 ≤ g.nv) (s : ℕ → ℕ → ℝ)
    (hs : ∀ t < g.nt, ∀ z < g.nz, ∀ k < n, S t z k = s t z) : ∀ batch ∈ batches,
      FlatSpectrum (fun x y => ∑ t : Fin g.nt, ∑ z : Fin g.nz, s t z * g.marg (massP g ρ) ['t','x','z'] ⟨t, 0, x, y, z⟩)
        (evaluateYbar interp (baseSelf cube stored) sp batch) n g.nx g.ny := by
  have hv : VelocityOk g.nv g.v sp.dv v0 := by
    refine ⟨fun i hi => ?_, fun i hi => ?_, hmid⟩
    · rw [hw i hi, sub_self, abs_zero]; positivity
    · have h1 := h.proper.v i (by omega)
      have h2 := h.proper.v (i + 1) hi
      unfold centre
      linarith
  intro batch hb
  refine flatSpectrum_of (plain_batches hI h hn hS h0 hv hm hb) fun k _ x hx y hy => ?_
  have hhalf : 4 ≤ Fft.half g.nv := by unfold Fft.half; omega
  rw [ybarFT_broad]
  simp only [Finset.sum_mul]
  refine Finset.sum_congr rfl fun t _ => Finset.sum_congr rfl fun z _ => ?_
  rw [broad_congr (hs t t.2 z z.2), broad_const hI hn hhalf, sum_shift h.proper.nv (fun v => ρ ⟨t, v, x, y, z⟩), marg_txz t.2 hx hy z.2]
  have : ∀ v : Fin g.nv, massP g ρ ⟨t, v, x, y, z⟩ = ρ ⟨t, v, x, y, z⟩ * (sp.dv * (width g.t t * width g.z z * width g.x x * width g.y y)) := fun v => by
    simp only [massP, Grid.cellVolume, hw v v.2]
    ring
  simp only [this, ← Finset.sum_mul]
  ring

/-- The same for parametric components, whatever their velocities and the velocity bins. -/
theorem C100_parametric_featureless (h : ParamIs p g m L) (hn : 0 < n) (hS : SpectraAre sp g S n n) (s : ℕ → ℕ → ℝ)
    (hs : ∀ t < g.nt, ∀ z < g.nz, ∀ k < n, S t z k = s t z) : ∀ batch ∈ batches,
      FlatSpectrum (fun x y => ∑ t : Fin g.nt, ∑ z : Fin g.nz, s t z * m.probTXZ g ⟨t, 0, x, y, z⟩) (p.evaluateYbar sp batch) n g.nx g.ny := by
  intro batch hb
  refine flatSpectrum_of (param_batches h hn hS hb) fun k _ x hx y hy => ?_
  rw [ybarOf_blur]
  refine Finset.sum_congr rfl fun t _ => Finset.sum_congr rfl fun z _ => ?_
  rw [blur_congr (hs t t.2 z z.2), blur_const hn, mul_comm]

/-! ### Equal spectra -/

/-- If all stars have the same spectrum, the datacube of a plain component depends only on how velocities are distributed in each pixel: ages and
metallicities do not show. -/
theorem C100_plain_equal (hI : Interp interp) (h : BaseIs cube stored g ρ L) (h' : BaseIs cube' stored' g ρ' L') (hn : 0 < n)
    (hS : SpectraAre sp g S n n) (h0 : ZeroBin g.nv g.v v0) (hv : VelocityOk g.nv g.v sp.dv v0) (hm : 6 ≤ g.nv) (s : ℕ → ℝ)
    (hs : ∀ t < g.nt, ∀ z < g.nz, ∀ k < n, S t z k = s k) : ∀ batch ∈ batches,
      SameSpectrum (fun x y => ∀ v < g.nv, ∑ t : Fin g.nt, ∑ z : Fin g.nz, ρ' ⟨t, v, x, y, z⟩ * (width g.t t * width g.z z) =
          ∑ t : Fin g.nt, ∑ z : Fin g.nz, ρ ⟨t, v, x, y, z⟩ * (width g.t t * width g.z z))
        (evaluateYbar interp (baseSelf cube stored) sp batch) (evaluateYbar interp (baseSelf cube' stored') sp batch) n g.nx g.ny := by
  intro batch hb
  refine sameSpectrum_of (plain_batches hI h hn hS h0 hv hm hb) (plain_batches hI h' hn hS h0 hv hm hb) fun k _ x _ y _ ho => ?_
  have key : ∀ ρ : Cell → ℝ, ∑ t : Fin g.nt, ∑ z : Fin g.nz, broad interp g.nv n sp.dv (S t z) (fun i => ρ ⟨t, (i + v0) % g.nv, x, y, z⟩) k *
      (width g.t t * width g.z z) = broad interp g.nv n sp.dv s (fun i => ∑ t : Fin g.nt, ∑ z : Fin g.nz, ρ ⟨t, (i + v0) % g.nv, x, y, z⟩ *
        (width g.t t * width g.z z)) k := fun ρ => by
    have e := broad_total (n := n) hI (nv := g.nv) (dv := sp.dv) (s := s) (Finset.univ : Finset (Fin g.nt × Fin g.nz))
      (fun q => width g.t q.1 * width g.z q.2) (fun q i => ρ ⟨q.1, (i + v0) % g.nv, x, y, q.2⟩) k
    simp only [Fintype.sum_prod_type] at e
    refine Eq.trans (Finset.sum_congr rfl fun t _ => Finset.sum_congr rfl fun z _ => ?_) (e.trans ?_)
    · rw [broad_congr (hs t t.2 z z.2), mul_comm]
    · exact congrArg (fun φ => broad interp g.nv n sp.dv s φ k) (funext fun i => Finset.sum_congr rfl fun t _ =>
        Finset.sum_congr rfl fun z _ => mul_comm _ _)
  simp only [ybarFT_broad, key]
  congr 2
  exact congrArg (fun φ => broad interp g.nv n sp.dv s φ k) (funext fun i => ho _ (Nat.mod_lt _ h.proper.nv))

/-- If the spectra do not depend on metallicity, the datacube of a parametric component does not: with equal amounts of stars of each age in a pixel, and equal
velocities, it is the same. -/
theorem C100_parametric_equal {m' : Ingredients} (h : ParamIs p g m L) (h' : ParamIs p' g m' L') (hn : 0 < n) (hS : SpectraAre sp g S n n)
    (s : ℕ → ℕ → ℝ) (hs : ∀ t < g.nt, ∀ z < g.nz, ∀ k < n, S t z k = s t k) : ∀ batch ∈ batches,
      SameSpectrum (fun x y => ∀ t < g.nt, m'.mu t x y = m.mu t x y ∧ m'.sig t x y = m.sig t x y ∧
          ∑ z : Fin g.nz, m'.probTXZ g ⟨t, 0, x, y, z⟩ = ∑ z : Fin g.nz, m.probTXZ g ⟨t, 0, x, y, z⟩)
        (p.evaluateYbar sp batch) (p'.evaluateYbar sp batch) n g.nx g.ny := by
  intro batch hb
  refine sameSpectrum_of (param_batches h hn hS hb) (param_batches h' hn hS hb) fun k _ x _ y _ ho => ?_
  simp only [ybarOf_blur]
  refine Finset.sum_congr rfl fun t _ => ?_
  obtain ⟨e1, e2, e3⟩ := ho t t.2
  have e : ∀ z : Fin g.nz, blur sp n (S t z) (m.mu t x y) (m.sig t x y) k = blur sp n (s t) (m.mu t x y) (m.sig t x y) k := fun z =>
    blur_congr (hs t t.2 z z.2) _ _ _
  simp only [e1, e2, e, ← Finset.sum_mul, e3]

/-! ### Mixtures -/

/-- The datacube of a mixture is linear in the spectra if those of its members are. -/
theorem C100_mixture_linear {mx mx' mx'' : Mix} (a b : ℝ) (Y Y' Y'' : ℕ → Arr Num) (sh : List ℕ) (h0 : mx.children ≠ [])
    (hlen : mx.children.length = mx.weights.length) (hlen' : mx'.children.length = mx'.weights.length)
    (hlen'' : mx''.children.length = mx''.weights.length) (hw' : mx'.weights = mx.weights) (hw'' : mx''.weights = mx.weights)
    (hY : ∀ (i : ℕ) (hi : i < mx.children.length), mx.children[i].ybar = some (Y i) ∧ (Y i).shape = sh)
    (hY' : ∀ (i : ℕ) (hi : i < mx'.children.length), mx'.children[i].ybar = some (Y' i) ∧ (Y' i).shape = sh)
    (hY'' : ∀ (i : ℕ) (hi : i < mx''.children.length), mx''.children[i].ybar = some (Y'' i) ∧ (Y'' i).shape = sh)
    (hs : ∀ i < mx.children.length, ∀ j, InBox sh j → ∃ u u' : ℝ, (Y i).get j = .fin u ∧ (Y' i).get j = .fin u' ∧
      (Y'' i).get j = .fin (a * u + b * u')) :
    ∃ y y' y'', mx.evaluateYbar = .ok { mx with ybar := some y } ∧ mx'.evaluateYbar = .ok { mx' with ybar := some y' } ∧
      mx''.evaluateYbar = .ok { mx'' with ybar := some y'' } ∧ y.shape = sh ∧ y'.shape = sh ∧ y''.shape = sh ∧
      ∀ j, InBox sh j → ∃ u u' : ℝ, y.get j = .fin u ∧ y'.get j = .fin u' ∧ y''.get j = .fin (a * u + b * u') := by
  have ne : ∀ mz : Mix, mz.children.length = mz.weights.length → mz.weights = mx.weights → mz.children ≠ [] := fun mz hl hw e => by
    rw [e, hw, ← hlen] at hl
    exact h0 (List.length_eq_zero_iff.1 hl.symm)
  obtain ⟨y, a1, a2, a3⟩ := C30_weighted_sum mx Y sh h0 hlen hY
  obtain ⟨y', b1, b2, b3⟩ := C30_weighted_sum mx' Y' sh (ne _ hlen' hw') hlen' hY'
  obtain ⟨y'', c1, c2, c3⟩ := C30_weighted_sum mx'' Y'' sh (ne _ hlen'' hw'') hlen'' hY''
  refine ⟨y, y', y'', a1, b1, c1, a2, b2, c2, fun j hj => ?_⟩
  have hs' : ∀ i : ℕ, ∃ u u' : ℝ, i < mx.children.length → (Y i).get j = .fin u ∧ (Y' i).get j = .fin u' ∧
      (Y'' i).get j = .fin (a * u + b * u') := fun i => by
    by_cases hi : i < mx.children.length
    · obtain ⟨u, u', h⟩ := hs i hi j hj
      exact ⟨u, u', fun _ => h⟩
    · exact ⟨0, 0, fun h => absurd h hi⟩
  choose u u' hu using hs'
  refine ⟨∑ i : Fin mx.weights.length, mx.weights[i] * u i, ∑ i : Fin mx.weights.length, mx.weights[i] * u' i, ?_, ?_, ?_⟩
  · rw [a3 j hj, ← Num.fin_sum]
    refine Finset.sum_congr rfl fun i _ => ?_
    rw [(hu i (by rw [hlen]; exact i.2)).1, Num.fin_mul]
  · obtain ⟨c', k', w', z'⟩ := mx'
    subst hw'
    rw [b3 j hj, ← Num.fin_sum]
    refine Finset.sum_congr rfl fun i _ => ?_
    rw [(hu i (by rw [hlen]; exact i.2)).2.1, Num.fin_mul]
  · obtain ⟨c', k', w', z'⟩ := mx''
    subst hw''
    rw [c3 j hj, Finset.mul_sum, Finset.mul_sum, ← Finset.sum_add_distrib, ← Num.fin_sum]
    refine Finset.sum_congr rfl fun i _ => ?_
    rw [(hu i (by rw [hlen]; exact i.2)).2.2, Num.fin_mul]
    congr 1
    ring

/-! ### Examples -/

/-- Spectra of 7 pixels for the cube of `ybar_demo`. -/
theorem plainSpectra_exist (S : ℕ → ℕ → ℕ → ℝ) : ∃ sp, SpectraAre sp (uniformGrid 2 3 7 (-70, 70)) S 7 7 ∧ sp.dv = 20 := by
  obtain ⟨sp, -, h1, h2⟩ := fourier_is (g := uniformGrid 2 3 7 (-70, 70)) (S := S) (nl := 7) 20
    (Xw := ⟨[7, 6], fun i => S (i.getD 1 0 % 2) (i.getD 1 0 / 2) (i.getD 0 0)⟩) rfl (by
      intro k _ t ht z _
      have ht : t < 2 := ht
      have e1 : (z * 2 + t) % 2 = t := by omega
      have e2 : (z * 2 + t) / 2 = z := by omega
      show S ((z * 2 + t) % 2) ((z * 2 + t) / 2) k = _
      rw [e1, e2])
  exact ⟨sp, h1, h2⟩

/-- All stars have metallicities of bin `q`; the velocities vary. -/
def metalTable (q : ℕ) (c : Cell) : ℝ := if c.z = q then (c.v + 1) / (2 * q + 1) else 0

theorem metalTable_is (q : ℕ) {cube : IFUCube} (h : BaseIs cube (uniformStored 2 3 7) (uniformGrid 2 3 7 (-70, 70)) (fun _ => 1) demoL) :
    BaseIs cube ⟨[2, 7, 2, 3, 3], fun i => Num.lg (metalTable q ⟨i.getD 0 0, i.getD 1 0, i.getD 2 0, i.getD 3 0, i.getD 4 0⟩)⟩
      (uniformGrid 2 3 7 (-70, 70)) (metalTable q) demoL :=
  ⟨h.proper, h.cubeIs, ⟨rfl, fun _ _ => rfl⟩, fun c => by unfold metalTable; split <;> positivity, h.light, h.lightNonneg⟩

/-- Plain components: sums of spectra; spectra of metallicities without stars; spectra without features; equal spectra and different metallicities. -/
example : ∃ (cube : IFUCube) (st st' : Arr Num) (sp sp' sp'' flat same : Spectra) (y y' y'' yf ys ys' : Arr Num) (u u' w c : ℝ),
    evaluateYbar (fun m Y x => Y (min (m - 1) ⌊x * (m - 1 : ℝ) + 1 / 2⌋₊)) (baseSelf cube st) sp "none".toList = .ok y ∧
    evaluateYbar (fun m Y x => Y (min (m - 1) ⌊x * (m - 1 : ℝ) + 1 / 2⌋₊)) (baseSelf cube st) sp' "none".toList = .ok y' ∧
    evaluateYbar (fun m Y x => Y (min (m - 1) ⌊x * (m - 1 : ℝ) + 1 / 2⌋₊)) (baseSelf cube st) sp'' "none".toList = .ok y'' ∧
    evaluateYbar (fun m Y x => Y (min (m - 1) ⌊x * (m - 1 : ℝ) + 1 / 2⌋₊)) (baseSelf cube st) flat "column".toList = .ok yf ∧
    evaluateYbar (fun m Y x => Y (min (m - 1) ⌊x * (m - 1 : ℝ) + 1 / 2⌋₊)) (baseSelf cube st) same "spaxel".toList = .ok ys ∧
    evaluateYbar (fun m Y x => Y (min (m - 1) ⌊x * (m - 1 : ℝ) + 1 / 2⌋₊)) (baseSelf cube st') same "spaxel".toList = .ok ys' ∧
    y.get [3, 1, 2] = .fin u ∧ y'.get [3, 1, 2] = .fin u' ∧ y''.get [3, 1, 2] = .fin (2 * u + 3 * u') ∧ u' = u ∧
    yf.get [3, 1, 2] = .fin w ∧ yf.get [5, 1, 2] = .fin w ∧ ys.get [3, 1, 2] = .fin c ∧ ys'.get [3, 1, 2] = .fin c := by
  obtain ⟨cube, sp, -, h, hS, hdv, h5, h6, h7⟩ := ybar_demo
  obtain ⟨sp', hS', hdv'⟩ := plainSpectra_exist fun t z k => if z = 0 then demoSpec t z k else 17
  obtain ⟨sp'', hS'', hdv''⟩ := plainSpectra_exist fun t z k => 2 * demoSpec t z k + 3 * if z = 0 then demoSpec t z k else 17
  obtain ⟨flat, hF, hdF⟩ := plainSpectra_exist fun t z _ => t + 2 * z
  obtain ⟨same, hE, hdE⟩ := plainSpectra_exist fun _ _ k => k ^ 2
  have hm : 6 ≤ (uniformGrid 2 3 7 (-70, 70)).nv := by show 6 ≤ 7; norm_num
  have hb := metalTable_is 0 h
  obtain ⟨y, y', y'', e1, e2, e3, -, -, -, e4⟩ := C100_plain_linear interp_exists hb hb hb (by norm_num) 2 3 hS hS' hS'' (hdv'.trans hdv.symm)
    (hdv''.trans hdv.symm) h5 h6 hm "none".toList (by decide)
  obtain ⟨u, u', a1, a2, a3⟩ := e4 3 (by norm_num) 1 (by show 1 < 2; norm_num) 2 (by show 2 < 3; norm_num)
  obtain ⟨z, z', f1, f2, -, -, f3⟩ := C100_plain_absent interp_exists hb hb (by norm_num) hS hS' (hdv'.trans hdv.symm) h5 h6 hm "none".toList (by decide)
  obtain ⟨v, b1, b2⟩ := f3 3 (by norm_num) 1 (by show 1 < 2; norm_num) 2 (by show 2 < 3; norm_num) (by
    rintro t - z - ⟨v, -, hv⟩ k -
    have : z = 0 := by
      by_contra hz
      exact hv (if_neg hz)
    exact if_pos this)
  obtain rfl : z = y := Except.ok.inj (f1.symm.trans e1)
  obtain rfl : z' = y' := Except.ok.inj (f2.symm.trans e2)
  obtain ⟨yf, g1, -, g2⟩ := C100_plain_featureless interp_exists hb (by norm_num) hF h5 (fun i hi => (h7 i hi).trans (hdv.trans hdF.symm)) rfl hm _
    (fun _ _ _ _ _ _ => rfl) "column".toList (by decide)
  obtain ⟨ys, ys', c1, c2, -, -, c3⟩ := C100_plain_equal interp_exists hb (metalTable_is 1 h) (by norm_num) hE h5 (by rw [hdE, ← hdv]; exact h6) hm _
    (fun _ _ _ _ _ _ => rfl) "spaxel".toList (by decide)
  obtain ⟨c, d1, d2⟩ := c3 3 (by norm_num) 1 (by show 1 < 2; norm_num) 2 (by show 2 < 3; norm_num) (by
    intro v _
    show ∑ t : Fin 2, ∑ z : Fin 3, _ = ∑ t : Fin 2, ∑ z : Fin 3, _
    norm_num [Fin.sum_univ_succ, metalTable, uniformGrid, cubeGrid, width]
    ring)
  refine ⟨cube, _, _, sp, sp', sp'', flat, same, _, _, y'', yf, ys, ys', u, u', _, c, e1, e2, e3, g1, c1, c2, a1, a2, a3, ?_,
    g2 3 (by norm_num) 1 (by show 1 < 2; norm_num) 2 (by show 2 < 3; norm_num),
    g2 5 (by norm_num) 1 (by show 1 < 2; norm_num) 2 (by show 2 < 3; norm_num), d1, d2⟩
  exact (Num.fin.inj (a2.symm.trans b2)).trans (Num.fin.inj (a1.symm.trans b1)).symm

/-- A disk with all stars in the metallicity bin `q`. -/
def metalIngr (q : ℕ) : Ingredients := { flatIngr (fun _ => 50) with pz := fun _ _ _ z => if z = q then 1 / |width demoGrid.z z| else 0 }

theorem metalDisk_exists {q : ℕ} (hq : q < 3) : ∃ p, ParamIs p demoGrid (metalIngr q) demoL := by
  obtain ⟨p, h, -⟩ := flatDisk_exists (fun _ => 50)
  refine ⟨{ p with logPztx := some ⟨[3, 2, 5, 6], fun i => Num.lg ((metalIngr q).pz (i.getD 1 0) (i.getD 2 0) (i.getD 3 0) (i.getD 0 0))⟩ },
    ⟨h.proper, h.cubeIs, ⟨h.norm.pt, h.norm.px, fun _ _ _ z => ?_, h.norm.sig, h.norm.sumT, h.norm.sumX, fun t _ x _ y _ => ?_⟩, h.logPt, h.logPxt,
      ⟨_, rfl, rfl, fun _ _ => rfl⟩, h.muV, h.sigV, h.light, h.lightNonneg⟩⟩
  · unfold metalIngr
    dsimp only
    split <;> positivity
  · have h1 : 0 < width demoGrid.z q := sub_pos.2 (demoGrid_proper.z _ hq)
    rw [Finset.sum_eq_single_of_mem (⟨q, hq⟩ : Fin demoGrid.nz) (Finset.mem_univ _) fun z _ hz => by
      show (if (z : ℕ) = q then _ else (0 : ℝ)) * _ = 0
      rw [if_neg fun e => hz (Fin.ext e), zero_mul]]
    show (if q = q then 1 / |width demoGrid.z q| else (0 : ℝ)) * width demoGrid.z q = 1
    rw [if_pos rfl, abs_of_pos h1, one_div, inv_mul_cancel₀ h1.ne']

/-- The same for disks. -/
example : ∃ (p p' : Param) (sp sp' sp'' flat same : Spectra) (y y' y'' yf ys ys' : Arr Num) (u u' w c : ℝ),
    ParamIs p demoGrid (metalIngr 0) demoL ∧ ParamIs p' demoGrid (metalIngr 1) demoL ∧
    p.evaluateYbar sp "none".toList = .ok y ∧ p.evaluateYbar sp' "none".toList = .ok y' ∧ p.evaluateYbar sp'' "none".toList = .ok y'' ∧
    p.evaluateYbar flat "column".toList = .ok yf ∧ p.evaluateYbar same "spaxel".toList = .ok ys ∧ p'.evaluateYbar same "spaxel".toList = .ok ys' ∧
    y.get [3, 1, 2] = .fin u ∧ y'.get [3, 1, 2] = .fin u' ∧ y''.get [3, 1, 2] = .fin (2 * u + 3 * u') ∧ u' = u ∧
    yf.get [3, 1, 2] = .fin w ∧ yf.get [5, 1, 2] = .fin w ∧ ys.get [3, 1, 2] = .fin c ∧ ys'.get [3, 1, 2] = .fin c := by
  obtain ⟨p, h⟩ := metalDisk_exists (q := 0) (by norm_num)
  obtain ⟨p', h'⟩ := metalDisk_exists (q := 1) (by norm_num)
  obtain ⟨sp, hS, hdv⟩ := anySpectra_exist demoSpec 8 100
  obtain ⟨sp', hS', hdv'⟩ := anySpectra_exist (fun t z k => if z = 0 then demoSpec t z k else 17) 8 100
  obtain ⟨sp'', hS'', hdv''⟩ := anySpectra_exist (fun t z k => 2 * demoSpec t z k + 3 * if z = 0 then demoSpec t z k else 17) 8 100
  obtain ⟨flat, hF, -⟩ := anySpectra_exist (fun t z _ => t + 2 * z) 8 100
  obtain ⟨same, hE, -⟩ := anySpectra_exist (fun t _ k => t + k ^ 2) 8 100
  obtain ⟨y, y', y'', e1, e2, e3, -, -, -, e4⟩ := C100_parametric_linear h h h (by norm_num) 2 3 hS hS' hS'' (hdv'.trans hdv.symm)
    (hdv''.trans hdv.symm) "none".toList (by decide)
  obtain ⟨u, u', a1, a2, a3⟩ := e4 3 (by norm_num) 1 (by show 1 < 5; norm_num) 2 (by show 2 < 6; norm_num)
  obtain ⟨z, z', f1, f2, -, -, f3⟩ := C100_parametric_absent h h (by norm_num) hS hS' (hdv'.trans hdv.symm) "none".toList (by decide)
  obtain ⟨v, b1, b2⟩ := f3 3 (by norm_num) 1 (by show 1 < 5; norm_num) 2 (by show 2 < 6; norm_num) (by
    rintro t - z - hv k -
    have : z = 0 := by
      by_contra hz
      refine hv ?_
      unfold Ingredients.probTXZ Ingredients.probZ metalIngr
      simp [hz]
    exact if_pos this)
  obtain rfl : z = y := Except.ok.inj (f1.symm.trans e1)
  obtain rfl : z' = y' := Except.ok.inj (f2.symm.trans e2)
  obtain ⟨yf, g1, -, g2⟩ := C100_parametric_featureless h (by norm_num) hF _ (fun _ _ _ _ _ _ => rfl) "column".toList (by decide)
  obtain ⟨ys, ys', c1, c2, -, -, c3⟩ := C100_parametric_equal h h' (by norm_num) hE _ (fun _ _ _ _ _ _ => rfl) "spaxel".toList (by decide)
  obtain ⟨c, d1, d2⟩ := c3 3 (by norm_num) 1 (by show 1 < 5; norm_num) 2 (by show 2 < 6; norm_num) (by
    intro t ht
    refine ⟨rfl, rfl, ?_⟩
    have e : ∀ {q : ℕ} {p : Param}, ParamIs p demoGrid (metalIngr q) demoL → ∑ z : Fin demoGrid.nz, (metalIngr q).probTXZ demoGrid ⟨t, 0, 1, 2, z⟩ =
        (flatIngr fun _ => 50).pt t * width demoGrid.t t * ((flatIngr fun _ => 50).px t 1 2 * (width demoGrid.x 1 * width demoGrid.y 2)) := fun hq => by
      have := hq.norm.sumZ t ht 1 (by show 1 < 5; norm_num) 2 (by show 2 < 6; norm_num)
      simp only [Ingredients.probTXZ, Ingredients.probT, Ingredients.probX, Ingredients.probZ, ← Finset.mul_sum, this, mul_one]
      rfl
    rw [e h, e h'])
  refine ⟨p, p', sp, sp', sp'', flat, same, _, _, y'', yf, ys, ys', u, u', _, c, h, h', e1, e2, e3, g1, c1, c2, a1, a2, a3, ?_,
    g2 3 (by norm_num) 1 (by show 1 < 5; norm_num) 2 (by show 2 < 6; norm_num),
    g2 5 (by norm_num) 1 (by show 1 < 5; norm_num) 2 (by show 2 < 6; norm_num), d1, d2⟩
  exact (Num.fin.inj (a2.symm.trans b2)).trans (Num.fin.inj (a1.symm.trans b1)).symm

/-- Mixtures of two equal disks. -/
example : ∃ (p : Param) (mx mx' mx'' : Mix) (Y Y' Y'' : Arr Num) (u u' : ℝ), ParamIs p demoGrid (metalIngr 0) demoL ∧ mx.weights = [1 / 4, 3 / 4] ∧
    mx.evaluateYbar = .ok { mx with ybar := some Y } ∧ mx'.evaluateYbar = .ok { mx' with ybar := some Y' } ∧
    mx''.evaluateYbar = .ok { mx'' with ybar := some Y'' } ∧
    Y.get [3, 1, 2] = .fin u ∧ Y'.get [3, 1, 2] = .fin u' ∧ Y''.get [3, 1, 2] = .fin (2 * u + 3 * u') := by
  obtain ⟨p, h⟩ := metalDisk_exists (q := 0) (by norm_num)
  obtain ⟨sp, hS, hdv⟩ := anySpectra_exist demoSpec 8 100
  obtain ⟨sp', hS', hdv'⟩ := anySpectra_exist (fun _ _ k => k) 8 100
  obtain ⟨sp'', hS'', hdv''⟩ := anySpectra_exist (fun t z k => 2 * demoSpec t z k + 3 * k) 8 100
  obtain ⟨y, y', y'', -, -, -, s1, s2, s3, e4⟩ := C100_parametric_linear h h h (by norm_num) 2 3 hS hS' hS'' (hdv'.trans hdv.symm)
    (hdv''.trans hdv.symm) "none".toList (by decide)
  obtain ⟨Y, Y', Y'', f1, f2, f3, -, -, -, f4⟩ := C100_mixture_linear 2 3
    (mx := ⟨p.cube, [Component.child p.self (some y), Component.child p.self (some y)], [1 / 4, 3 / 4], none⟩)
    (mx' := ⟨p.cube, [Component.child p.self (some y'), Component.child p.self (some y')], [1 / 4, 3 / 4], none⟩)
    (mx'' := ⟨p.cube, [Component.child p.self (some y''), Component.child p.self (some y'')], [1 / 4, 3 / 4], none⟩)
    (fun _ => y) (fun _ => y') (fun _ => y'') [8, demoGrid.nx, demoGrid.ny] (by simp) rfl rfl rfl rfl rfl
    (fun i hi => by
      have : i < 2 := hi
      interval_cases i <;> exact ⟨rfl, s1⟩)
    (fun i hi => by
      have : i < 2 := hi
      interval_cases i <;> exact ⟨rfl, s2⟩)
    (fun i hi => by
      have : i < 2 := hi
      interval_cases i <;> exact ⟨rfl, s3⟩)
    (fun i _ j hj => by
      match j, hj with
      | [k, a, b], hj => exact e4 k hj.1 a hj.2.1 b hj.2.2.1)
  obtain ⟨u, u', a1, a2, a3⟩ := f4 [3, 1, 2] ⟨by norm_num, by show 1 < 5; norm_num, by show 2 < 6; norm_num, trivial⟩
  exact ⟨p, _, _, _, Y, Y', Y'', u, u', h, rfl, f1, f2, f3, a1, a2, a3⟩

end PKM
