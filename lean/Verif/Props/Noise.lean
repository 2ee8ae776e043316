import Verif.NoiseLemmas

/-!
# C40, C41: noise

`sigmaOf kind y snr` is `get_sigma(snr=snr)` of `ConstantSNR` / `ShotNoise` for a component whose datacube is `y`;
`getNoisyData z c kind snr` is `get_noisy_data(snr=snr)` run in memory, where `z 0, z 1, ...` are the standard normal numbers that
numpy's generator delivers. `IsCube y s Y`: the array `y` has shape `s` and finite entries `Y`.
-/

open scoped Classical

noncomputable section

namespace PKM
open Np

variable {y : Arr Num} {s : List ℕ} {Y : List ℕ → ℝ} {snr : ℝ}

/-- `ConstantSNR`: sigma is flux over signal-to-noise, so that the signal-to-noise ratio is `snr` in every voxel with flux. -/
theorem C40_constant (hy : IsCube y s Y) (h : 0 < snr) :
    ∃ σ, sigmaOf .constantSNR y (.fin snr) = .ok σ ∧ σ.shape = s ∧
      ∀ i, InBox s i → σ.get i = .fin (Y i / snr) ∧ (Y i ≠ 0 → y.get i / σ.get i = .fin snr) := by
  obtain ⟨σ, h1, h2, h3⟩ := bop_scalarR (· / ·) y (Num.fin snr)
  rw [hy.1] at h2 h3
  refine ⟨σ, h1, h2, fun i hi => ?_⟩
  have e : σ.get i = .fin (Y i / snr) := by
    rw [h3 i hi, hy.2 i hi, Num.fin_div _ _ h.ne']
  refine ⟨e, fun h0 => ?_⟩
  rw [e, hy.2 i hi, Num.fin_div _ _ (div_ne_zero h0 h.ne')]
  congr 1
  field_simp

/-- `ShotNoise`: with `i0` a brightest voxel, sigma is `sqrt (Y i0) * sqrt (Y i) / snr`. -/
theorem shot_sigma (hy : IsCube y s Y) (hne : ∃ i, InBox s i) (h0 : ∀ i, InBox s i → 0 ≤ Y i) (h : 0 < snr) :
    ∃ σ i0, sigmaOf .shotNoise y (.fin snr) = .ok σ ∧ σ.shape = s ∧ InBox s i0 ∧ (∀ i, InBox s i → Y i ≤ Y i0) ∧
      ∀ i, InBox s i → σ.get i = .fin (Real.sqrt (Y i0) * Real.sqrt (Y i) / snr) := by
  obtain ⟨i0, h1, h2, h3⟩ := maxAll_spec hy hne
  obtain ⟨σ, h4, h5, h6⟩ := bop_scalarL (· * ·) (Num.fin (Real.sqrt (Y i0) / snr)) (map Num.sqrt y)
  have e : sigmaOf .shotNoise y (.fin snr) = .ok σ := by
    simp only [sigmaOf, shotSigma, h3, Py.ok_bind]
    have : Num.sqrt (Num.fin (Y i0)) / Num.fin snr = Num.fin (Real.sqrt (Y i0) / snr) := by
      simp only [Num.sqrt, h0 i0 h1, if_true]
      rw [Num.fin_div _ _ h.ne']
    rw [this]
    exact h4
  have hs : (map Num.sqrt y).shape = s := hy.1
  rw [hs] at h5 h6
  refine ⟨σ, i0, e, h5, h1, h2, fun i hi => ?_⟩
  rw [h6 i hi]
  have : (map Num.sqrt y).get i = .fin (Real.sqrt (Y i)) := by
    show Num.sqrt (y.get i) = _
    rw [hy.2 i hi]
    simp [Num.sqrt, h0 i hi]
  rw [this]
  show Num.fin (Real.sqrt (Y i0) / snr * Real.sqrt (Y i)) = _
  congr 1
  ring

/-- `ShotNoise`: the signal-to-noise ratio is `snr` at a brightest voxel `i0`, scales with the square root of the flux, and is
nowhere above `snr`; sigma is nowhere below that of `ConstantSNR`. -/
theorem C40_shot (hy : IsCube y s Y) (hne : ∃ i, InBox s i) (h0 : ∀ i, InBox s i → 0 < Y i) (h : 0 < snr) :
    ∃ σ σc i0, sigmaOf .shotNoise y (.fin snr) = .ok σ ∧ sigmaOf .constantSNR y (.fin snr) = .ok σc ∧ σ.shape = s ∧
      InBox s i0 ∧ (∀ i, InBox s i → Y i ≤ Y i0) ∧ y.get i0 / σ.get i0 = .fin snr ∧
      ∀ i, InBox s i → y.get i / σ.get i = .fin (snr * Real.sqrt (Y i / Y i0)) ∧
        snr * Real.sqrt (Y i / Y i0) ≤ snr ∧ Num.le (σc.get i) (σ.get i) := by
  obtain ⟨σ, i0, h1, h2, h3, h4, h5⟩ := shot_sigma hy hne (fun i hi => (h0 i hi).le) h
  obtain ⟨σc, h6, h7, h8⟩ := C40_constant hy h
  have key : ∀ i, InBox s i → y.get i / σ.get i = .fin (snr * Real.sqrt (Y i / Y i0)) := by
    intro i hi
    have a := Real.sqrt_pos.2 (h0 i hi)
    have b := Real.sqrt_pos.2 (h0 i0 h3)
    rw [h5 i hi, hy.2 i hi, Num.fin_div _ _ (by positivity), Real.sqrt_div (h0 i hi).le]
    congr 1
    have := Real.mul_self_sqrt (h0 i hi).le
    field_simp
    nlinarith
  refine ⟨σ, σc, i0, h1, h6, h2, h3, h4, ?_, fun i hi => ⟨key i hi, ?_, ?_⟩⟩
  · rw [key i0 h3, div_self (h0 i0 h3).ne']
    simp
  · have : Real.sqrt (Y i / Y i0) ≤ 1 := by
      rw [← Real.sqrt_one]
      exact Real.sqrt_le_sqrt ((div_le_one (h0 i0 h3)).2 (h4 i hi))
    nlinarith
  · rw [h5 i hi, (h8 i hi).1]
    show Y i / snr ≤ Real.sqrt (Y i0) * Real.sqrt (Y i) / snr
    refine div_le_div_of_nonneg_right ?_ h.le
    have := Real.mul_self_sqrt (h0 i hi).le
    have l := Real.sqrt_le_sqrt (h4 i hi)
    nlinarith [Real.sqrt_nonneg (Y i)]

/-- `ShotNoise` of an empty datacube raises `ValueError`. -/
theorem C40_empty (hy : y.shape = s) (hne : ¬ ∃ i, InBox s i) (snr : Num) :
    sigmaOf .shotNoise y snr = .error .valueError := by
  have : allIndices y.shape = [] := by
    rw [List.eq_nil_iff_forall_not_mem]
    intro i hi
    rw [hy] at hi
    exact hne ⟨i, mem_allIndices.1 hi⟩
  simp [sigmaOf, shotSigma, maxAll, this]

theorem noisy_ok {z : ℕ → ℝ} {d : ℕ} {k : NoiseKind} {y a σ : Arr Num} {snr : Num} (h : noisyOf z d k y snr = .ok a)
    (hσ : sigmaOf k y snr = .ok σ) : ∀ i, InBox σ.shape i → Num.le (.fin 0) (σ.get i) := by
  by_contra hneg
  unfold noisyOf noiseOf at h
  rw [hσ] at h
  simp only [Py.ok_bind] at h
  cases hb : bop Prod.mk (full y.shape (Num.fin 0)) σ with
  | error e => rw [hb] at h; simp at h
  | ok b =>
    rw [hb] at h
    simp only [Py.ok_bind] at h
    rw [if_neg hneg] at h
    simp at h

/-- Negative noise is never produced: whenever `get_noisy_data` returns, every sigma was `>= 0`; in every other case it raises.
This holds for all datacubes (also with nan and infinities) and all `snr`. -/
theorem C40_never_negative (z : ℕ → ℝ) {c : NoiseTarget} {o : Ptr} {h : Heap} (hc : c.ybar = some o) {y : Arr Num} (hy : Points h o y)
    (k : NoiseKind) (snr : Num) :
    (∃ e, (getNoisyData z c k snr h).1 = .error e) ∨
    ∃ r σ, (getNoisyData z c k snr h).1 = .ok r ∧ sigmaOf k y snr = .ok σ ∧
      ∀ i, InBox σ.shape i → Num.le (.fin 0) (σ.get i) := by
  obtain ⟨-, h1⟩ := getNoisyData_run (z := z) hc hy le_rfl k snr
  cases hr : (getNoisyData z c k snr h).1 with
  | error e => exact .inl ⟨e, rfl⟩
  | ok r =>
    right
    rw [hr] at h1
    cases hp : noisyOf z h.drawn k y snr with
    | error e => rw [hp] at h1; exact h1.elim
    | ok a =>
      cases hs : sigmaOf k y snr with
      | error e => simp [noisyOf, hs] at hp
      | ok σ => exact ⟨r, σ, rfl, rfl, noisy_ok hp hs⟩

/-- A datacube with a negative voxel makes both noise classes raise `ValueError`. -/
theorem C40_negative_flux (z : ℕ → ℝ) {c : NoiseTarget} {o : Ptr} {h : Heap} (hc : c.ybar = some o) (hp : Points h o y)
    (hy : IsCube y s Y) (hneg : ∃ i, InBox s i ∧ Y i < 0) (hs : 0 < snr) (k : NoiseKind) :
    (getNoisyData z c k (.fin snr) h).1 = .error .valueError := by
  obtain ⟨i, hi, hY⟩ := hneg
  obtain ⟨-, h1⟩ := getNoisyData_run (z := z) hc hp le_rfl k (.fin snr)
  have hσ : ∃ σ, sigmaOf k y (.fin snr) = .ok σ ∧ σ.shape = s ∧ ¬ Num.le (.fin 0) (σ.get i) := by
    cases k with
    | constantSNR =>
      obtain ⟨σ, h2, h3, h4⟩ := C40_constant hy hs
      refine ⟨σ, h2, h3, ?_⟩
      rw [(h4 i hi).1]
      show ¬ (0 ≤ Y i / snr)
      exact not_le.2 (div_neg_of_neg_of_pos hY hs)
    | shotNoise =>
      obtain ⟨i0, -, -, h2⟩ := maxAll_spec hy ⟨i, hi⟩
      obtain ⟨σ, h4, h5, h6⟩ := bop_scalarL (· * ·) (Num.sqrt (Num.fin (Y i0)) / Num.fin snr) (map Num.sqrt y)
      have hsh : (map Num.sqrt y).shape = s := hy.1
      rw [hsh] at h5 h6
      refine ⟨σ, ?_, h5, ?_⟩
      · simp only [sigmaOf, shotSigma, h2, Py.ok_bind]
        exact h4
      · rw [h6 i hi]
        have : (map Num.sqrt y).get i = .nan := by
          show Num.sqrt (y.get i) = _
          rw [hy.2 i hi]
          simp [Num.sqrt, not_le.2 hY]
        rw [this]
        generalize Num.sqrt (Num.fin (Y i0)) / Num.fin snr = K
        have : K * Num.nan = Num.nan := by cases K <;> rfl
        rw [this]
        simp [Num.le]
  obtain ⟨σ, h2, h3, h4⟩ := hσ
  have : noisyOf z h.drawn k y (.fin snr) = .error .valueError := by
    unfold noisyOf noiseOf
    rw [h2]
    obtain ⟨b, hb, -, -⟩ := bop_eqShape Prod.mk (a := full y.shape (Num.fin 0)) (b := σ) (by rw [h3]; exact hy.1)
    simp only [Py.ok_bind, hb]
    rw [if_neg (fun hall => h4 (hall i (h3 ▸ hi)))]
    rfl
  rw [this] at h1
  revert h1
  cases (getNoisyData z c k (.fin snr) h).1 <;> simp

/-! ### C41 -/

/-- Calls before `evaluate_ybar` raise `AttributeError`. -/
theorem C41_no_datacube (z : ℕ → ℝ) {c : NoiseTarget} (hc : c.ybar = none) (k : NoiseKind) (snr : Num) (h : Heap) :
    (getNoisyData z c k snr h).1 = .error .attributeError := by
  simp [getNoisyData, NoiseTarget.getYbar, hc, H.throw, Bind.bind]

theorem noisy_value (z : ℕ → ℝ) (d : ℕ) (k : NoiseKind) (hy : IsCube y s Y) {σ : Arr Num} {S : List ℕ → ℝ} {snr : Num}
    (hσ : sigmaOf k y snr = .ok σ) (hS : IsCube σ s S) (h0 : ∀ i, InBox s i → 0 ≤ S i) :
    ∃ a, noisyOf z d k y snr = .ok a ∧ IsCube a s (fun i => Y i + S i * z (d + ravel s i)) := by
  have hall : ∀ i, InBox σ.shape i → Num.le (.fin 0) (σ.get i) := by
    rw [hS.1]
    intro i hi
    rw [hS.2 i hi]
    exact h0 i hi
  obtain ⟨b, hb, hb1, hb2⟩ := bop_eqShape Prod.mk (a := full y.shape (Num.fin 0)) (b := σ) (by rw [hS.1]; exact hy.1)
  have hb1' : b.shape = s := hb1.trans hy.1
  have hbox : (full y.shape (Num.fin 0)).shape = s := hy.1
  rw [hbox] at hb2
  have he : ∃ e, noiseOf z d y.shape σ = .ok e ∧ IsCube e s (fun i => S i * z (d + ravel s i)) := by
    unfold noiseOf
    rw [hb]
    simp only [Py.ok_bind]
    by_cases hz : ∀ i, InBox σ.shape i → σ.get i = .fin 0
    · refine ⟨_, by rw [if_pos hall, if_pos hz], hb1', fun i hi => ?_⟩
      have e0 : S i = 0 := by
        have := hz i (hS.1 ▸ hi)
        rw [hS.2 i hi] at this
        simpa using this
      show (b.get i).1 * Num.fin 1 = _
      beta_reduce
      rw [hb2 i hi, e0]
      show Num.fin (0 * 1) = _
      simp
    · refine ⟨_, by rw [if_pos hall, if_neg hz], hb1', fun i hi => ?_⟩
      show Num.fin (z (d + ravel b.shape i)) * (b.get i).2 + (b.get i).1 = _
      rw [hb2 i hi, hS.2 i hi, hb1']
      show Num.fin (z (d + ravel s i) * S i + 0) = _
      congr 1
      ring
  obtain ⟨e, he1, he2⟩ := he
  obtain ⟨a, ha, ha1, ha2⟩ := bop_eqShape (· + ·) (a := y) (b := e) (by rw [hy.1, he2.1])
  rw [hy.1] at ha1 ha2
  refine ⟨a, ?_, ha1, fun i hi => ?_⟩
  · unfold noisyOf
    rw [hσ]
    simp only [Py.ok_bind, he1]
    exact ha
  · rw [ha2 i hi, hy.2 i hi, he2.2 i hi]
    rfl

/-- Noisy data is signal plus sigma times standard normal numbers, one new number per voxel; it is a new array of the shape of
the datacube, and the datacube is unchanged. -/
theorem C41_data (z : ℕ → ℝ) {c : NoiseTarget} {o : Ptr} {h : Heap} (hc : c.ybar = some o) (hp : Points h o y) (hy : IsCube y s Y)
    (k : NoiseKind) {snr : Num} {σ : Arr Num} {S : List ℕ → ℝ} (hσ : sigmaOf k y snr = .ok σ) (hS : IsCube σ s S)
    (h0 : ∀ i, InBox s i → 0 ≤ S i) :
    ∃ r, (getNoisyData z c k snr h).1 = .ok r ∧ r.buf ≠ o.buf ∧
      IsCube ((getNoisyData z c k snr h).2.val r) s (fun i => Y i + S i * z (h.drawn + ravel s i)) ∧
      Points (getNoisyData z c k snr h).2 o y := by
  obtain ⟨h1, h2⟩ := getNoisyData_run (z := z) hc hp le_rfl k snr
  obtain ⟨a, h3, h4⟩ := noisy_value z h.drawn k hy hσ hS h0
  rw [h3] at h2
  cases hr : (getNoisyData z c k snr h).1 with
  | error e => rw [hr] at h2; exact h2.elim
  | ok r =>
    rw [hr] at h2
    obtain ⟨h5, h6⟩ := h2
    refine ⟨r, rfl, ?_, h5.2.2.2 ▸ h4, h6⟩
    have := h5.1
    have := hp.1
    unfold Heap.Has at this
    omega

/-- Something a user can do with a noise object: ask for sigma or for noisy data, or overwrite an array returned earlier. -/
inductive NoiseOp
  | sigma (k : NoiseKind) (snr : Num)
  | data (k : NoiseKind) (snr : Num)
  | edit (which : ℕ) (a : Arr Num)

/-- Effect of one operation on memory and on the list of arrays returned so far. -/
def NoiseOp.run (z : ℕ → ℝ) (c : NoiseTarget) (st : Heap × List Ptr) : NoiseOp → Heap × List Ptr
  | .sigma k snr => match getSigma c k snr st.1 with
    | (.ok r, h) => (h, st.2 ++ [r])
    | (.error _, h) => (h, st.2)
  | .data k snr => match getNoisyData z c k snr st.1 with
    | (.ok r, h) => (h, st.2 ++ [r])
    | (.error _, h) => (h, st.2)
  | .edit i a => match st.2[i]? with
    | some r => ((H.write r a st.1).2, st.2)
    | none => st

theorem noise_step {z : ℕ → ℝ} {c : NoiseTarget} {o : Ptr} {y : Arr Num} (hc : c.ybar = some o) (st : Heap × List Ptr) (op : NoiseOp)
    (h : Points st.1 o y ∧ ∀ r ∈ st.2, r.buf ≠ o.buf) :
    Points (op.run z c st).1 o y ∧ ∀ r ∈ (op.run z c st).2, r.buf ≠ o.buf := by
  obtain ⟨hp, hr⟩ := h
  have hb : o.buf < st.1.next := hp.1
  cases op with
  | sigma k snr =>
    obtain ⟨h1, h2⟩ := getSigma_run hc hp le_rfl k snr
    have hk := hp.keep h1 hb
    simp only [NoiseOp.run]
    rcases hg : getSigma c k snr st.1 with ⟨r, h'⟩
    rw [hg] at h2 hk
    cases r with
    | error e => exact ⟨hk, hr⟩
    | ok r =>
      refine ⟨hk, fun q hq => ?_⟩
      rcases List.mem_append.1 hq with hq | hq
      · exact hr q hq
      · cases hs : sigmaOf k y snr with
        | error e => rw [hs] at h2; exact h2.elim
        | ok a =>
          rw [hs] at h2
          obtain rfl : q = r := by simpa using hq
          have := h2.1
          omega
  | data k snr =>
    obtain ⟨h1, h2⟩ := getNoisyData_run (z := z) hc hp le_rfl k snr
    have hk := hp.keep h1 hb
    simp only [NoiseOp.run]
    rcases hg : getNoisyData z c k snr st.1 with ⟨r, h'⟩
    rw [hg] at h2 hk
    cases r with
    | error e => exact ⟨hk, hr⟩
    | ok r =>
      refine ⟨hk, fun q hq => ?_⟩
      rcases List.mem_append.1 hq with hq | hq
      · exact hr q hq
      · cases hs : noisyOf z st.1.drawn k y snr with
        | error e => rw [hs] at h2; exact h2.elim
        | ok a =>
          rw [hs] at h2
          obtain rfl : q = r := by simpa using hq
          have := h2.1.1
          omega
  | edit i a =>
    simp only [NoiseOp.run]
    cases hi : st.2[i]? with
    | none => exact ⟨hp, hr⟩
    | some r =>
      have hne : o.buf ≠ r.buf := (hr r (List.mem_of_getElem? hi)).symm
      refine ⟨⟨hb, ?_⟩, hr⟩
      rw [← hp.2]
      simp [Heap.val, H.write, hne]

/-- The datacube survives every history: any sequence of calls with any arguments, successful or not, and of edits by the user of
the arrays they returned, leaves the stored datacube unchanged. -/
theorem C41_history (z : ℕ → ℝ) {c : NoiseTarget} {o : Ptr} {h : Heap} {y : Arr Num} (hc : c.ybar = some o) (hp : Points h o y)
    (ops : List NoiseOp) : (ops.foldl (NoiseOp.run z c) (h, [])).1.val o = y := by
  suffices ∀ (ops : List NoiseOp) (st : Heap × List Ptr), (Points st.1 o y ∧ ∀ r ∈ st.2, r.buf ≠ o.buf) →
      Points (ops.foldl (NoiseOp.run z c) st).1 o y ∧ ∀ r ∈ (ops.foldl (NoiseOp.run z c) st).2, r.buf ≠ o.buf from
    (this ops (h, []) ⟨hp, by simp⟩).1.2
  intro ops
  induction ops with
  | nil => intro st hst; exact hst
  | cons op ops ih => intro st hst; exact ih _ (noise_step hc st op hst)

/-- Hence calls made later see the same datacube; the random numbers are those next in line. -/
theorem C41_after_history (z : ℕ → ℝ) {c : NoiseTarget} {o : Ptr} {h : Heap} (hc : c.ybar = some o) (hp : Points h o y)
    (hy : IsCube y s Y) (h0 : ∀ i, InBox s i → 0 ≤ Y i) (hne : ∃ i, InBox s i) (ops : List NoiseOp) {snr : ℝ} (hs : 0 < snr) :
    let h' := (ops.foldl (NoiseOp.run z c) (h, [])).1
    (∃ r, (getNoisyData z c .constantSNR (.fin snr) h').1 = .ok r ∧
      IsCube ((getNoisyData z c .constantSNR (.fin snr) h').2.val r) s (fun i => Y i + Y i / snr * z (h'.drawn + ravel s i))) ∧
    ∃ r i0, (getNoisyData z c .shotNoise (.fin snr) h').1 = .ok r ∧ InBox s i0 ∧ (∀ i, InBox s i → Y i ≤ Y i0) ∧
      IsCube ((getNoisyData z c .shotNoise (.fin snr) h').2.val r) s
        (fun i => Y i + Real.sqrt (Y i0) * Real.sqrt (Y i) / snr * z (h'.drawn + ravel s i)) := by
  intro h'
  have hp' : Points h' o y := by
    suffices ∀ (ops : List NoiseOp) (st : Heap × List Ptr), (Points st.1 o y ∧ ∀ r ∈ st.2, r.buf ≠ o.buf) →
        Points (ops.foldl (NoiseOp.run z c) st).1 o y ∧ ∀ r ∈ (ops.foldl (NoiseOp.run z c) st).2, r.buf ≠ o.buf from
      (this ops (h, []) ⟨hp, by simp⟩).1
    intro ops
    induction ops with
    | nil => intro st hst; exact hst
    | cons op ops ih => intro st hst; exact ih _ (noise_step hc st op hst)
  obtain ⟨σ, h1, h2, h3⟩ := C40_constant hy hs
  obtain ⟨r, h4, -, h5, -⟩ := C41_data z hc hp' hy .constantSNR h1 ⟨h2, fun i hi => (h3 i hi).1⟩
    (fun i hi => div_nonneg (h0 i hi) hs.le)
  obtain ⟨σ', i0, k1, k2, k3, k4, k5⟩ := shot_sigma hy hne h0 hs
  obtain ⟨r', k6, -, k7, -⟩ := C41_data z hc hp' hy .shotNoise k1 ⟨k2, k5⟩
    (fun i hi => div_nonneg (mul_nonneg (Real.sqrt_nonneg _) (Real.sqrt_nonneg _)) hs.le)
  exact ⟨⟨r, h4, h5⟩, r', i0, k6, k3, k4, k7⟩

/-! ### The hypotheses are met -/

/-- A datacube with two wavelengths and three spaxels, in the first buffer of memory. -/
def demoFlux : Arr Num := ⟨[2, 3, 1], fun i => .fin (1 + ravel [2, 3, 1] i)⟩

def demoHeap : Heap := ⟨1, fun _ => demoFlux, 0⟩

example : Points demoHeap ⟨0, none⟩ demoFlux ∧ IsCube demoFlux [2, 3, 1] (fun i => 1 + ravel [2, 3, 1] i) ∧
    (∃ i, InBox [2, 3, 1] i) ∧ (∀ i : List ℕ, InBox [2, 3, 1] i → (0 : ℝ) < 1 + ravel [2, 3, 1] i) := by
  refine ⟨⟨Nat.zero_lt_one, rfl⟩, ⟨rfl, fun i _ => rfl⟩, ⟨[1, 2, 0], by simp [InBox]⟩, fun i _ => by positivity⟩

example (z : ℕ → ℝ) : (([NoiseOp.data .constantSNR (.fin 100), .edit 0 (full [2, 3, 1] .nan), .sigma .shotNoise (.fin 10)]).foldl
    (NoiseOp.run z ⟨some ⟨0, none⟩⟩) (demoHeap, [])).1.val ⟨0, none⟩ = demoFlux :=
  C41_history (h := demoHeap) (o := ⟨0, none⟩) z rfl ⟨Nat.zero_lt_one, rfl⟩ _

end PKM
