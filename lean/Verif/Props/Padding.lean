import Verif.Props.Ybar

/-!
# C23, continued: padded transforms

`_calculate_fourier_transform(pad)` of the SSPs with `pad="ppxf"` uses transforms of the length of the next power of two. Then the datacube
has that many wavelengths, and only `batch="none"` works.
-/

noncomputable section

namespace PKM
open Np Component

variable {g : Grid} {S : ℕ → ℕ → ℕ → ℝ} {nl n v0 : ℕ} {sp : Spectra} {cube : IFUCube} {stored : Arr Num} {ρ : Cell → ℝ} {L : ℕ → ℕ → ℝ}
  {interp : ℕ → (ℕ → ℂ) → ℝ → ℂ}

/-- `n` is the least power of two that is at least `nl`. -/
structure NextPow2 (nl n : ℕ) : Prop where
  pow : ∃ e, n = 2 ^ e
  le : nl ≤ n
  least : ∀ e, nl ≤ 2 ^ e → n ≤ 2 ^ e

theorem nextPow2_clog (nl : ℕ) : NextPow2 nl (2 ^ Nat.clog 2 nl) :=
  ⟨⟨_, rfl⟩, Nat.le_pow_clog (by norm_num) nl, fun e h => Nat.pow_le_pow_right (by norm_num) ((Nat.clog_le_iff_le_pow (by norm_num)).2 h)⟩

/-- With `pad="ppxf"` the spectra are padded with zeros to the next power of two; all other strings raise `ValueError`. -/
theorem C23_padding {Xw : Arr ℝ} (dv : ℝ) (hs : Xw.shape = [nl, g.nz * g.nt])
    (hX : ∀ k < nl, ∀ t < g.nt, ∀ z < g.nz, Xw.get [k, z * g.nt + t] = S t z k) :
    (∃ sp n, Spectra.fourier dv Xw [g.nz, g.nt] (some "ppxf".toList) = .ok sp ∧ NextPow2 nl n ∧ SpectraAre sp g S nl n ∧ sp.dv = dv) ∧
    ∀ pad, pad ≠ "ppxf".toList → Spectra.fourier dv Xw [g.nz, g.nt] (some pad) = .error .valueError := by
  refine ⟨?_, fun pad h => by simp only [Spectra.fourier, if_neg h]; rfl⟩
  refine ⟨⟨dv, Xw, 2 ^ Nat.clog 2 nl, T ⟨[g.nz * g.nt, Fft.half (2 ^ Nat.clog 2 nl)], fun i =>
    Fft.rfft nl (2 ^ Nat.clog 2 nl) (fun j => (T Xw).get (i.set 1 j)) (i.getD 1 0)⟩, [g.nz, g.nt]⟩, _, ?_, nextPow2_clog nl, ⟨?_, rfl, rfl, ?_, ?_⟩, rfl⟩
  · simp only [Spectra.fourier, if_true, Py.ok_bind, hs, T, List.headD_cons, List.reverse_cons, List.reverse_nil, List.nil_append, List.cons_append, List.set_cons_succ,
      List.set_cons_zero]
  · simp [hs]
  · simp [T]
  · intro w hw t ht z hz
    simp only [T, List.reverse_cons, List.reverse_nil, List.nil_append, List.cons_append, List.set_cons_succ,
      List.set_cons_zero, List.getD_cons_succ, List.getD_cons_zero]
    unfold Fft.rfft
    refine Finset.sum_congr rfl fun j hj => ?_
    by_cases hj : j < nl
    · rw [if_pos hj, if_pos hj]
      beta_reduce
      rw [hX j hj t ht z hz]
    · rw [if_neg hj, if_neg hj]

theorem foldlM_range_error {β : Type} {N : ℕ} (f : β → ℕ → Py β) {a : β} {e : PyErr} (hN : 0 < N) (h : f a 0 = .error e) :
    (List.range N).foldlM f a = .error e := by
  obtain ⟨k, rfl⟩ : ∃ k, N = k + 1 := ⟨N - 1, by omega⟩
  rw [List.range_succ_eq_map, List.foldlM_cons, h]
  rfl

/-- A padded datacube has as many wavelengths as the padded spectra, and is only available with `batch="none"`: all other values of
`batch` raise `ValueError`. -/
theorem C23_padded_batches (hI : Interp interp) (h : BaseIs cube stored g ρ L) (hS : SpectraAre sp g S nl n) (hn : nl ≠ n) (h1 : 1 < n)
    (h0 : ZeroBin g.nv g.v v0) (hv : VelocityOk g.nv g.v sp.dv v0) (hm : 6 ≤ g.nv) :
    (∃ y, evaluateYbar interp (baseSelf cube stored) sp "none".toList = .ok y ∧ y.shape = [n, g.nx, g.ny]) ∧
    ∀ batch, batch ≠ "none".toList → evaluateYbar interp (baseSelf cube stored) sp batch = .error .valueError := by
  have hle : 4 ≤ Fft.half g.nv := by unfold Fft.half; omega
  have hn0 : 0 < n := by omega
  obtain ⟨⟨y, a1, b1, -⟩, -, -, e4⟩ := (evaluateYbar_is hI.loc h hn0 hS h0 hv).2 hle
  refine ⟨⟨y, a1, b1⟩, fun batch hb => ?_⟩
  have hval : validateVEdg cube.vEdg sp.dv = .ok () := by
    rw [(validateVEdg_is h.cubeIs.vEdg sp.dv).1 v0 h0, if_pos hv]
  obtain ⟨Fs, hFs, hFs'⟩ := fourierSpectra_is h.proper hS
  obtain ⟨p, hp, hp'⟩ := joint_is h
  obtain ⟨v, hv1, hv2⟩ := vCentres_is h.cubeIs.vEdg
  have hz := ((v0Idx_is hv2).1 v0).2 h0
  have hsh : Fs.shape.getD 1 0 = Fft.half n := by rw [hFs'.1]; rfl
  obtain ⟨-, d2⟩ := fourierDensity_is hI.loc h.proper hp' v0 sp.dv (Fft.half n)
  obtain ⟨Fp, hFp, hFp'⟩ := d2 hle
  have hcube : (baseSelf cube stored).cube = cube := rfl
  have run : ∀ batch, evaluateYbar interp (baseSelf cube stored) sp batch =
        if batch = "none".toList then ybarNone sp cube Fs Fp
        else if batch = "column".toList then ybarColumn sp cube Fs Fp
        else if batch = "spaxel".toList then ybarSpaxel sp cube Fs Fp
        else .error .valueError := by
    intro batch
    simp only [evaluateYbar, hcube, hval, hFs, hp, hv1, hz, Py.ok_bind, hsh, hFp]
  have hnF := hS.nFft
  subst hnF
  have bdim_bad : bdim sp.nFft nl = none ∨ ∃ d, bdim sp.nFft nl = some d ∧ d ≠ nl := by
    unfold bdim
    split_ifs with e1 e2
    · exact absurd e1.symm hn
    · omega
    · exact .inr ⟨_, rfl, fun e => hn e.symm⟩
    · exact .inl rfl
  have bad1 : ∀ s : Arr Num, s.shape = [sp.nFft] → broadcastTo [nl] s = .error .valueError := by
    intro s hs
    unfold broadcastTo
    rcases bdim_bad with e | ⟨d, e, e'⟩ <;> simp [hs, bshapeR, e]
    exact e'
  have bad2 : ∀ s : Arr Num, s.shape = [sp.nFft, g.nx] → broadcastTo [nl, g.nx] s = .error .valueError := by
    intro s hs
    unfold broadcastTo
    rcases bdim_bad with e | ⟨d, e, e'⟩ <;> simp [hs, bshapeR, e, bdim_self]
    exact e'
  by_cases hc : batch = "column".toList
  · subst hc
    rw [run, if_neg hb, if_pos rfl]
    obtain ⟨a, b, d, ha, hb, hd, hd'⟩ := dtz4 h.cubeIs
    obtain ⟨A, hA, hF⟩ := prod4 hFs' hFp'
    obtain ⟨P, F, hP, hF1, hF2⟩ := hF 0 h.proper.ny
    obtain ⟨s, hs1, hs2, -⟩ := sumSpectra4 (sp := sp) hF2 rfl hn0 hd' (fin_dx h.cubeIs h.proper.nx) (fin_dy h.cubeIs h.proper.ny)
    simp only [ybarColumn, ha, hb, hd, hA, Py.ok_bind, h.cubeIs.nx, h.cubeIs.ny, hS.len]
    refine foldlM_range_error _ h.proper.ny ?_
    simp only [hP, hF1, hs1, Py.ok_bind, setColumn, full, List.getD_cons_succ, List.getD_cons_zero, bad2 s hs2]
    rfl
  · by_cases hc' : batch = "spaxel".toList
    · subst hc'
      rw [run, if_neg hb, if_neg hc, if_pos rfl]
      obtain ⟨a, b, d, ha, hb, hd, hd'⟩ := dtz3 h.cubeIs
      obtain ⟨P, F, hP, hF1, hF2⟩ := prod3 hFs' hFp' h.proper.nx h.proper.ny
      obtain ⟨s, hs1, hs2, -⟩ := sumSpectra3 (sp := sp) hF2 rfl hn0 hd' (fin_dx h.cubeIs h.proper.nx) (fin_dy h.cubeIs h.proper.ny)
      simp only [ybarSpaxel, ha, hb, hd, Py.ok_bind, h.cubeIs.nx, h.cubeIs.ny, hS.len]
      refine foldlM_range_error _ h.proper.nx (foldlM_range_error _ h.proper.ny ?_)
      simp only [hP, hF1, hs1, Py.ok_bind, setSpaxel, full, List.getD_cons_succ, List.getD_cons_zero, bad1 s hs2]
      rfl
    · exact e4 batch (by simp only [List.mem_cons, List.not_mem_nil, or_false, not_or]; exact ⟨hb, hc, hc'⟩)

/-- Seven wavelengths are padded to eight. -/
example : ∃ (cube : IFUCube) (sp : Spectra) (Xw : Arr ℝ) (y : Arr Num), Xw.shape = [7, 6] ∧
    Spectra.fourier 20 Xw [3, 2] (some "ppxf".toList) = .ok sp ∧
    evaluateYbar (fun m Y x => Y (min (m - 1) ⌊x * (m - 1 : ℝ) + 1 / 2⌋₊)) (baseSelf cube (uniformStored 2 3 7)) sp "none".toList = .ok y ∧
    y.shape = [8, 2, 3] ∧
    evaluateYbar (fun m Y x => Y (min (m - 1) ⌊x * (m - 1 : ℝ) + 1 / 2⌋₊)) (baseSelf cube (uniformStored 2 3 7)) sp "column".toList =
      .error .valueError := by
  obtain ⟨cube, sp0, -, h2, h3, h4, h5, h6, h7⟩ := ybar_demo
  obtain ⟨⟨sp, n, k1, k2, k3, k4⟩, -⟩ := C23_padding (g := uniformGrid 2 3 7 (-70, 70)) (S := demoSpec) (nl := 7)
    (Xw := ⟨[7, 6], fun i => demoSpec (i.getD 1 0 % 2) (i.getD 1 0 / 2) (i.getD 0 0)⟩) 20 rfl (by
      intro k _ t ht z _
      have ht : t < 2 := ht
      show demoSpec ((z * 2 + t) % 2) ((z * 2 + t) / 2) k = _
      congr 1 <;> omega)
  have hn : n = 8 := by
    obtain ⟨e, rfl⟩ := k2.pow
    have h1 := k2.le
    have h2 := k2.least 3 (by norm_num)
    have : e ≤ 3 := by by_contra h; have := Nat.pow_le_pow_right (n := 2) (by norm_num) (show 4 ≤ e by omega); omega
    interval_cases e <;> simp_all
  subst hn
  rw [h4, ← k4] at h6
  obtain ⟨⟨y, a, b⟩, c⟩ := C23_padded_batches interp_exists h2 k3 (by norm_num) (by norm_num) h5 h6 (by show 6 ≤ 7; norm_num)
  exact ⟨cube, sp, _, y, rfl, k1, a, b, c _ (by decide)⟩

end PKM
